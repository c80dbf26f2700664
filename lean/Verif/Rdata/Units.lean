import Verif.Reach.Units

/-!
# C204: the pyGSFLOW builder in other units

Lengths and elevations are converted alike (`a = S.b` in C179), as from metres to feet.
-/

namespace Dany.Rdata

open Geom Reach

variable {N : ℕ} {S : Sim} {c : ℝ} {G G' : SGrid N ℝ}

/-- `r'` is row `r` in other units: length and elevation are converted, everything else, the slope included, is the
same. -/
def Alike (b c : ℝ) (r r' : Row ℝ) : Prop :=
  r'.rchlen = b * r.rchlen ∧ (r'.strtop = r.strtop.map fun z => b * z + c) ∧
  r'.node = r.node ∧ r'.k = r.k ∧ r'.i = r.i ∧ r'.j = r.j ∧ r'.iseg = r.iseg ∧ r'.ireach = r.ireach ∧
  r'.slope = r.slope ∧ r'.strthick = r.strthick ∧ r'.strhc1 = r.strhc1 ∧ r'.reachID = r.reachID ∧
  r'.outreach = r.outreach

private theorem alike_of_same {b : ℝ} (hb : 0 < b) {r r' : Row ℝ} (h : SameRow b b c r r') : Alike b c r r' := by
  obtain ⟨h1, h2, h3, h4, h5, h6, h7, h8, h9, h10, h11, h12, h13⟩ := h
  refine ⟨h7, h8, h1, h2, h3, h4, h5, h6, ?_, h10, h11, h12, h13⟩
  rcases h9 with h9 | ⟨h9, h9'⟩
  · rw [h9, div_self hb.ne']
    cases r.slope <;> simp
  · rw [h9, h9']

theorem corr_bind {α β α' β' : Type*} {R : α → β → Prop} {Q : α' → β' → Prop} {x : Res α} {y : Res β}
    {f : α → Res α'} {g : β → Res β'} (h : Corr R x y) (hfg : ∀ u v, R u v → Corr Q (f u) (g v)) :
    Corr Q (x.bind f) (y.bind g) := by
  cases x <;> cases y <;> simp only [Corr] at h
  · exact hfg _ _ h
  · subst h; rfl
  · trivial

theorem corr_refl {α : Type*} {R : α → α → Prop} (hR : ∀ x, R x x) (x : Res α) : Corr R x x := by
  cases x <;> simp [Corr, hR]

theorem corr_map {α β α' β' : Type*} {R : α → β → Prop} {Q : α' → β' → Prop} {x : Res α} {y : Res β}
    {f : α → α'} {g : β → β'} (h : Corr R x y) (hfg : ∀ u v, R u v → Q (f u) (g v)) :
    Corr Q (x.map f) (y.map g) := by
  cases x <;> cases y <;> simp only [Corr] at h
  · exact hfg _ _ h
  · subst h; rfl
  · trivial

/-- **C204** (`reach_data`). -/
theorem C204_reach_data (h : Converted S S.b c G G') (limit fuel : ℕ) (o : Obj N) (arg : Option (Fin N → ℤ))
    (group : Bool) :
    Corr (fun r r' => r'.1 = r.1 ∧ List.Forall₂ (Alike S.b c) r.2 r'.2) (o.reachData limit fuel G arg group)
      (o.reachData limit fuel G' arg group) := by
  unfold Obj.reachData
  refine corr_bind (corr_refl (R := Eq) (fun _ => rfl) _) ?_
  rintro u _ rfl
  refine corr_map (C179_reach_data h u.2.1 u.2.2) ?_
  intro t t' ht
  exact ⟨rfl, ht.imp fun _ _ hr => alike_of_same S.pos hr⟩

private theorem dist_conv (h : Converted S S.b c G G') (n m : Fin N) : G'.dist n m = S.b * G.dist n m := by
  unfold SGrid.dist
  rw [h.sqrt, h.sqrt']
  have hd := S.sqrt (G.xc n, G.yc n) (G.xc m, G.yc m)
  rw [← h.centre, ← h.centre] at hd
  exact hd

private theorem pyIndex_cast {a b : ℕ} (h : a = b) (x : ℤ) : pyIndex b x = (pyIndex a x).map (Fin.cast h) := by
  subst h
  cases pyIndex a x <;> rfl

private theorem fixRow_conv (h : Converted S S.b c G G') {tbl tbl' : List (Row ℝ)}
    (ht : List.Forall₂ (Alike S.b c) tbl tbl') {r r' : Row ℝ} (hr : Alike S.b c r r') :
    Corr (Alike S.b c) (fixRow G tbl r) (fixRow G' tbl' r') := by
  have hb := S.pos
  have hlen := ht.length_eq
  obtain ⟨h1, h2, h3, h4, h5, h6, h7, h8, h9, h10, h11, h12, h13⟩ := hr
  unfold fixRow
  refine corr_bind (R := Eq) ?_ ?_
  · rw [h13, h3]
    by_cases hc : r.outreach - 1 ≥ tbl.length
    · rw [if_pos hc, if_pos (by rw [← hlen]; exact hc)]
      rfl
    · rw [if_neg hc, if_neg (by rw [← hlen]; exact hc)]
      have hget : ∀ k : Fin tbl.length, (tbl'.get (Fin.cast hlen k)).node = (tbl.get k).node := fun k =>
        (ht.get k.2 (by rw [← hlen]; exact k.2)).2.2.1
      have hidx : ∀ x : ℤ, pyIndex tbl'.length x = (pyIndex tbl.length x).map (Fin.cast hlen) := by
        intro x
        exact pyIndex_cast hlen x
      rw [hidx]
      cases pyIndex tbl.length (r.outreach - 1) with
      | ok k => exact (hget k).symm
      | err e => rfl
      | hang => trivial
  · rintro x _ rfl
    rw [h3]
    refine corr_bind (corr_refl (R := Eq) (fun _ => rfl) _) ?_
    rintro n _ rfl
    refine corr_map (corr_refl (R := Eq) (fun _ => rfl) _) ?_
    rintro m _ rfl
    refine ⟨h1, h.top n, rfl, h4, h5, h6, h7, h8, ?_, rfl, rfl, h12, h13⟩
    show clamp _ = clamp _
    congr 1
    rw [dist_conv h]
    by_cases h0 : G.dist n m = 0
    · simp [h0]
    · rw [if_neg h0, if_neg (mul_ne_zero hb.ne' h0)]
      unfold SGrid.grade
      rw [h.top, h.top]
      cases G.top n with
      | none => rfl
      | some x =>
        cases G.top m with
        | none => rfl
        | some y =>
          simp only [Option.map_some]
          rw [if_neg h0, if_neg (mul_ne_zero hb.ne' h0)]
          congr 1
          have := hb.ne'
          field_simp
          ring

private theorem fixRows_conv (h : Converted S S.b c G G') {tbl tbl' : List (Row ℝ)}
    (ht : List.Forall₂ (Alike S.b c) tbl tbl') {l l' : List (Row ℝ)} (hl : List.Forall₂ (Alike S.b c) l l') :
    Corr (List.Forall₂ (Alike S.b c)) (fixRows G tbl l) (fixRows G' tbl' l') := by
  induction hl with
  | nil => exact List.Forall₂.nil
  | cons hr _ ih =>
    exact corr_bind (fixRow_conv h ht hr) fun u v huv => corr_map ih fun x y hxy => List.Forall₂.cons huv hxy

/-- **C204.**  If coordinates, cell sizes and elevations are given in another unit of length (in a turned, mirrored or
moved system, above another datum), `get_pygsflow_builder_object` gives the same segments and `irunbnd` and the same
reaches with the same slopes, converted lengths and tops.  It raises the same exception or none.  The segment data and
`irunbnd` may be given by the caller. -/
theorem C204_builder (h : Converted S S.b c G G') (limit fuel cfuel : ℕ) (o : Obj N) (sd : Option (List (SRow ℝ)))
    (ir : Option (Fin N → ℤ)) (applyDefaults group : Bool) (kw : List String) :
    Corr (fun r r' => r'.1 = r.1 ∧ List.Forall₂ (Alike S.b c) r.2.1 r'.2.1 ∧ r'.2.2 = r.2.2)
      (o.builder limit fuel cfuel G none sd ir applyDefaults group kw)
      (o.builder limit fuel cfuel G' none sd ir applyDefaults group kw) := by
  unfold Obj.builder
  refine corr_bind (corr_refl (R := Eq) (fun _ => rfl) _) ?_
  rintro _ _ -
  refine corr_bind (C204_reach_data h limit fuel o none group) ?_
  rintro ⟨o1, tbl⟩ ⟨o1', tbl'⟩ ⟨he, ht⟩
  dsimp only at he ht
  subst he
  refine corr_bind (corr_refl (R := Eq) (fun _ => rfl) _) ?_
  rintro s _ rfl
  refine corr_bind (corr_refl (R := Eq) (fun _ => rfl) _) ?_
  rintro i _ rfl
  cases applyDefaults with
  | false => exact ⟨rfl, ht, rfl⟩
  | true =>
    rw [if_pos rfl, if_pos rfl]
    exact corr_map (fixRows_conv h ht ht) fun x y hxy => ⟨rfl, hxy, rfl⟩

/-! ### a concrete case: the two cells of C179, lengths and elevations both in kilometres -/

noncomputable def twoK : SGrid 2 ℝ :=
  ⟨2, ![0, 0], ![7, 1 / 10 + 7], ![some (5008 / 1000), some (5007 / 1000)], fun _ => 1 / 10, fun _ => 1 / 10, Real.sqrt⟩

theorem twoK_converted : Converted simK simK.b 5 twoS twoK := by
  constructor <;> first | rfl | (intro n; fin_cases n <;> norm_num [twoS, twoK, Sim.app, simK]) |
    (intro n; norm_num [twoS, twoK, simK])

def twoObj : Obj 2 := ⟨![1, -1], some ![1, 1], some ([(2, 0)], [(0, 2, 1), (1, 2, 2)])⟩

example : ∃ r r', twoObj.reachData 10 10 twoS none true = .ok r ∧ twoObj.reachData 10 10 twoK none true = .ok r' ∧
    r.2.length = 2 ∧ List.Forall₂ (Alike (1 / 1000) 5) r.2 r'.2 := by
  obtain ⟨r, h1, h2⟩ : ∃ r, twoObj.reachData 10 10 twoS none true = .ok r ∧ r.2.length = 2 := by
    simp [Obj.reachData, Obj.network, Obj.source, twoObj, reachTable, firstPass, segStep, sortItems, segLoop, nextCell,
      outCell, secondPass, patchDown, toTable, SGrid.lrc, Dict.get?, twoS]
  have := C204_reach_data twoK_converted 10 10 twoObj none true
  rw [h1] at this
  cases h : twoObj.reachData 10 10 twoK none true with
  | ok r' =>
    rw [h] at this
    exact ⟨r, r', h1, rfl, h2, by simpa [simK] using this.2⟩
  | err e => rw [h] at this; exact this.elim
  | hang => rw [h] at this; exact this.elim

end Dany.Rdata
