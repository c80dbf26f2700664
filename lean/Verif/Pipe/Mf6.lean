import Verif.Pipe.Witness
import Verif.Geom.Props

/-!
# The MODFLOW 6 tables at the end of the chain (C149)

`packagedata` and `connectiondata` on flow directions that run strictly downhill: reach tops fall along every
connection, and gradient times length is the fall.
-/

namespace Dany.Pipe

open Flow

variable {N : ℕ} {d : Fin N → Fin N} {sa : Fin N → ℤ} {limit : ℕ} {f : Fin N → ℝ} {o o' : Reach.Obj N}
  {gr : Dict ℤ ℤ} {G : Reach.Grid N ℝ}

theorem no_cycle_of_fall (hfall : ∀ n, d n ≠ n → f (d n) < f n) (n : Fin N) : ¬ OnCycle d n := by
  rintro ⟨hne, k, hk⟩
  have hle : ∀ m, f (d m) ≤ f m := fun m => by
    by_cases h : d m = m
    · rw [h]
    · exact (hfall m h).le
  have : ∀ j m, f (d^[j] m) ≤ f m := by
    intro j
    induction j with
    | zero => intro m; exact le_rfl
    | succ j ih => intro m; rw [Function.iterate_succ_apply]; exact (ih _).trans (hle m)
  have h1 := this k (d n)
  rw [← Function.iterate_succ_apply, hk] at h1
  exact absurd (hfall n hne) (not_lt.2 h1)

/-- What MODFLOW 6 needs of `packagedata` and `connectiondata`: as many rows of one as of the other; gradients not
negative, lengths positive; along every connection to a downstream reach (a negative entry) the reach
number grows, the reach top falls strictly, and length times gradient is that fall — or the gradient is 0 if the fall
is less than 1e-6. -/
def Falling (recs : List (Reach.PRec N ℝ)) (rows : List (ℤ × List ℤ)) : Prop :=
  recs.length = rows.length ∧
  (∀ (i : ℕ) (r : Reach.PRec N ℝ), recs[i]? = some r → 0 ≤ r.rgrd ∧ 0 < r.rlen) ∧
  ∀ (i k : ℕ) (r q : Reach.PRec N ℝ) (row : ℤ × List ℤ), recs[i]? = some r → recs[k]? = some q →
    rows[i]? = some row → 0 < k → -(k : ℤ) ∈ row.2 →
    i < k ∧ q.rtp < r.rtp ∧
      (1 / 1000000 ≤ r.rtp - q.rtp → r.rgrd * r.rlen = r.rtp - q.rtp) ∧
      (r.rtp - q.rtp < 1 / 1000000 → r.rgrd = 0)

/-- **C149.**  On flow directions that run strictly downhill, with the elevations as model top and the slopes
of the `slope` getter, `packagedata` and `connectiondata` are as MODFLOW 6 needs them. -/
theorem C149_tables (hd : Resolves o.fdir d) (hfall : ∀ n, d n ≠ n → f (d n) < f n)
    (hsa : o.streamArray = some sa) (hg : o.connectivity limit none = .ok (o', gr))
    (htop : ∀ n, G.top n = f n) {s : Fin N → Option ℝ}
    (hs : Geom.slope o.fdir G.xc G.yc (Dirs.filled f) = .ok s) (hslope : ∀ n, s n = some (G.slope n))
    (hside : ∀ n, 0 < G.side n)
    (hdist : ∀ n, d n ≠ n → (G.xc (d n), G.yc (d n)) ≠ (G.xc n, G.yc n)) :
    ∃ recs rows, o'.packageData Real.sqrt G limit none = .ok (o', recs) ∧
      o'.connData limit = .ok (o', rows) ∧ Falling recs rows := by
  classical
  obtain ⟨sa', recs, rows, h1, h2, h3, h4, h5, h6⟩ :=
    Reach.C54_packagedata (sqrt := Real.sqrt) (G := G) hd hsa hg
  obtain ⟨rows', h3', hjoin⟩ := Reach.C53_network hd hsa
    (fun n hn => absurd hn (no_cycle_of_fall hfall n)) hg
  rw [h3] at h3'
  obtain ⟨rfl⟩ : rows = rows' := by simpa using h3'
  obtain ⟨s', hs', hsp⟩ := Geom.C42_slope (xc := G.xc) (yc := G.yc) (dem := Dirs.filled f) hd
  rw [hs] at hs'
  cases hs'
  have hm : Reach.mf6 limit o.fdir sa = .ok (sa', gr) := by
    unfold Reach.Obj.connectivity Reach.Obj.source at hg
    rw [hsa] at hg
    simp only [Res.bind_ok] at hg
    obtain ⟨⟨sa1, g1⟩, hm, he⟩ := Res.map_eq_ok.1 hg
    simp only [Prod.mk.injEq] at he
    obtain ⟨rfl, rfl⟩ := he
    simp only [Option.some.injEq] at h1
    rw [← h1]; exact hm
  have hdn := Reach.C50_downstream hd (fun n hn => absurd hn (no_cycle_of_fall hfall n)) hm
  obtain ⟨L, hl, hm'⟩ := Reach.mf6_lift hm d
  obtain ⟨sa1, g1, e1, k0, k1, k2, k3, k4, k5⟩ := Reach.C49_reach_numbers (sa := sa) hd hl
  rw [hm'] at e1
  cases e1
  -- the cell of a record
  have hcell : ∀ (i : ℕ) (r : Reach.PRec N ℝ), recs[i]? = some r → ∃ n, sa n ≠ 0 ∧ sa' n = (i : ℤ) + 1 ∧
      r.rgrd = G.slope n / (3 / 2) ∧ r.rtp = f n ∧
      r.rlen = Reach.rlenOf Real.sqrt G n (if sa (d n) = 0 then n else d n) ∧
      ∀ row : ℤ × List ℤ, rows[i]? = some row → row.1 = i := by
    intro i r hr
    have hi : i < Reach.nStream sa := by
      rw [← h4]; exact (List.getElem?_eq_some_iff.1 hr).1
    obtain ⟨n, hn, hni⟩ := k3 (i + 1) (by omega) (by omega)
    obtain ⟨j, hj, rec, row, e1, e2, e3, _, _, _, e7, e8, e9⟩ := h6 n hn
    have hij : j = i := by rw [hni] at hj; push_cast at hj; omega
    subst hij
    rw [hr] at e1
    cases e1
    refine ⟨n, hn, hj, e7, by rw [e8, htop], e9, fun row' h' => ?_⟩
    rw [h'] at e2
    cases e2
    exact e3
  have hsl : ∀ n, 0 ≤ G.slope n := by
    intro n
    by_cases hn : d n = n
    · have := (hsp n).1 hn
      rw [hslope n] at this
      simp only [Option.some.injEq] at this
      rw [this]
    · obtain ⟨r, hr, h0⟩ := ((hsp n).2.2 (f n) (f (d n)) rfl rfl (hdist n hn)).2.2.2 (hfall n hn).le
      rw [hslope n] at hr
      simp only [Option.some.injEq] at hr
      rw [hr]; exact h0
  refine ⟨recs, rows, h2, h3, by rw [h4, h5], fun i r hr => ?_, fun i k r q row hr hq hrow hk hmem => ?_⟩
  · obtain ⟨n, hn, _, hgd, _, hlen, _⟩ := hcell i r hr
    refine ⟨by rw [hgd]; exact div_nonneg (hsl n) (by norm_num), ?_⟩
    rw [hlen]
    generalize (if sa (d n) = 0 then n else d n) = m
    unfold Reach.rlenOf
    split
    · have := hside n; positivity
    · rename_i hne
      have := lt_of_le_of_ne (Real.sqrt_nonneg _) (Ne.symm hne)
      positivity
  · obtain ⟨n, hn, hni, hgd, htp, hlen, hrow1⟩ := hcell i r hr
    obtain ⟨m, hm0, hmi, _, htq, _, _⟩ := hcell k q hq
    have hJ := ((hjoin row (List.mem_of_getElem? hrow) _ hmem).1).1 (by omega)
    rw [hrow1 row hrow] at hJ
    obtain ⟨j1, j2, j3⟩ := hJ
    rw [← hni, k5 n hn] at j1
    simp only [Option.some.injEq] at j1
    have hsd : sa' (d n) = (k : ℤ) + 1 := by omega
    have hd0 : sa (d n) ≠ 0 := fun h => by
      have := k0 (d n) h
      omega
    have hmd : m = d n := k2 m (d n) hm0 hd0 (by omega)
    subst hmd
    have hne : d n ≠ n := fun h => by rw [h] at hsd; omega
    have hlt := hfall n hne
    obtain ⟨hpos, g1, g2, _⟩ := (hsp n).2.2 (f n) (f (d n)) rfl rfl (hdist n hne)
    refine ⟨?_, by rw [htp, htq]; exact hlt, fun hdr => ?_, fun hdr => ?_⟩
    · have := hdn _ _ (k5 n hn)
      omega
    · rw [htp, htq] at hdr ⊢
      have hsv := g1 (.inl hdr)
      rw [hslope n] at hsv
      simp only [Option.some.injEq] at hsv
      rw [hgd, hlen, if_neg hd0, hsv]
      unfold Reach.rlenOf
      have hx : Real.sqrt ((G.xc n - G.xc (d n)) ^ 2 + (G.yc n - G.yc (d n)) ^ 2) =
          Geom.dist G.xc G.yc n (d n) := rfl
      rw [hx, if_neg hpos.ne']
      field_simp
    · rw [htp, htq] at hdr
      have hsv := g2 ⟨by linarith, hdr⟩
      rw [hslope n] at hsv
      simp only [Option.some.injEq] at hsv
      rw [hgd, hsv]; simp

variable {g : Flood.Grid N} {mask : Option (Fin N → Bool)} {demo : Fin N → ℝ} {raise : ℝ → ℝ} {flood thr big : ℝ}
  {method : String} {terminals : List ℤ} {fuel fuel' : ℕ} {out : Fin N → ℤ} {A : Dirs.Geo N ℝ}

/-- **C149** at the end of the chain of C99. -/
theorem C149_chain (hN : N < 1000000) (hstrict : ∀ x, x < raise x)
    (heff : Flood.effective mask method = .priority)
    (hfill : Flood.fillSinks fuel raise flood g demo mask method = .ok f)
    (hgr : GoodGrid g mask) (he : GoodEnds g mask f terminals) (hso : Dirs.Sound A (Dirs.filled f) (nbrs g))
    (hb : Dirs.Below A (Dirs.filled f) thr big (nbrs g))
    (hend : Dirs.CleanEnds A (Dirs.filled f) thr terminals (nbrs g))
    (hrun : Dirs.flowDirections fuel' A (Dirs.filled f) big (Dirs.table (nbrs g)) thr terminals = .ok out)
    (ho : o.fdir = out) (hsa : o.streamArray = some sa) (hg : o.connectivity limit none = .ok (o', gr))
    (htop : ∀ n, G.top n = f n) {s : Fin N → Option ℝ}
    (hs : Geom.slope out G.xc G.yc (Dirs.filled f) = .ok s) (hslope : ∀ n, s n = some (G.slope n))
    (hside : ∀ n, 0 < G.side n)
    (hcent : ∀ n m : Fin N, n ≠ m → (G.xc n, G.yc n) ≠ (G.xc m, G.yc m)) :
    ∃ recs rows, o'.packageData Real.sqrt G limit none = .ok (o', recs) ∧
      o'.connData limit = .ok (o', rows) ∧ Falling recs rows := by
  obtain ⟨d, h1, h2⟩ := C99_network hN hstrict heff hfill hgr he hso hb hend hrun
  subst ho
  exact C149_tables h1.legal.resolves (fun n hn => (h2 n hn).2) hsa hg htop hs hslope hside
    (fun n hn => hcent _ _ hn)

/-! ### Three stream cells in a row, each one lower than the one before -/

def obj3 : Reach.Obj 3 := ⟨![1, 2, 2], some (fun _ => 1), none⟩
noncomputable def f3 : Fin 3 → ℝ := ![5, 3, 1]
noncomputable def x3 : Fin 3 → ℝ := fun n => ((n : ℕ) : ℝ)

theorem f3_0 : f3 0 = 5 := rfl
theorem f3_1 : f3 1 = 3 := rfl
theorem f3_2 : f3 2 = 1 := rfl

theorem legal3 : Legal obj3.fdir ![1, 2, 2] := by unfold Legal; decide +kernel

theorem conn3 : ∃ r, obj3.connectivity 9 none = .ok r := by
  have h : (obj3.connectivity 9 none).map (fun r => r.2) = .ok [(1, 2), (2, 3), (3, 3)] := by decide +kernel
  obtain ⟨r, h, _⟩ := Res.map_eq_ok.1 h
  exact ⟨r, h⟩

example : ∃ o' gr, obj3.connectivity 9 none = .ok (o', gr) ∧ ∃ (G : Reach.Grid 3 ℝ) (recs : List (Reach.PRec 3 ℝ))
    (rows : List (ℤ × List ℤ)), o'.packageData Real.sqrt G 9 none = .ok (o', recs) ∧
      o'.connData 9 = .ok (o', rows) ∧ Falling recs rows := by
  obtain ⟨⟨o', gr⟩, hg⟩ := conn3
  refine ⟨o', gr, hg, ?_⟩
  obtain ⟨s, hs, hsp⟩ := Geom.C42_slope (xc := x3) (yc := fun _ => 0) (dem := Dirs.filled f3) legal3.resolves
  refine ⟨⟨x3, fun _ => 0, fun _ => 1, fun n => (s n).getD 0, f3⟩, C149_tables (f := f3) legal3.resolves ?_ rfl hg
    (fun _ => rfl) hs (fun n => ?_) (fun _ => one_pos) ?_⟩
  · intro n hn
    fin_cases n
    · show f3 1 < f3 0
      rw [f3_0, f3_1]; norm_num
    · show f3 2 < f3 1
      rw [f3_1, f3_2]; norm_num
    · exact absurd rfl hn
  · have hfx : ∀ n : Fin 3, (![1, 2, 2] : Fin 3 → Fin 3) n = n ∨ (![1, 2, 2] : Fin 3 → Fin 3) n ≠ n := fun n => em _
    have hle : ∀ n : Fin 3, f3 ((![1, 2, 2] : Fin 3 → Fin 3) n) ≤ f3 n := by
      intro n
      fin_cases n
      · show f3 1 ≤ f3 0
        rw [f3_0, f3_1]; norm_num
      · show f3 2 ≤ f3 1
        rw [f3_1, f3_2]; norm_num
      · exact le_refl (f3 2)
    rcases hfx n with h | h
    · show s n = some ((s n).getD 0)
      rw [(hsp n).1 h]; rfl
    · obtain ⟨r, hr, _⟩ := ((hsp n).2.2 _ _ rfl rfl (fun he => by
        simp only [Prod.mk.injEq, x3, Nat.cast_inj] at he
        exact h (Fin.ext he.1))).2.2.2 (hle n)
      show s n = some ((s n).getD 0)
      rw [hr]; rfl
  · intro n h he
    simp only [Prod.mk.injEq, x3, Nat.cast_inj] at he
    exact h (Fin.ext he.1)

end Dany.Pipe
