import Verif.Prms.Props
import Verif.Pipe.Packages
import Verif.Pipe.Units

/-!
# C181: PRMS cascades in other units

The fractions of the cascades are quotients of slopes, so they do not depend on the units; the slopes, aspects and
areas handed to pyGSFLOW are converted.
-/

namespace Dany.Prms

open Reach Casc Seg Geom

variable {N : ℕ}

section Field

variable {K : Type*} [Field K] [LinearOrder K] [IsStrictOrderedRing K]

/-- all slopes multiplied by `k` -/
def scaled (k : K) (nbs : Fin N → List (Fin N × Option K)) : Fin N → List (Fin N × Option K) :=
  fun n => (nbs n).map fun e => (e.1, e.2.map fun z => k * z)

private theorem candidates_scaled {k : K} (hk : 0 < k) (l : List (Fin N × Option K)) :
    candidates (l.map fun e => (e.1, e.2.map fun z => k * z)) = (candidates l).map fun e => (e.1, k * e.2) := by
  induction l with
  | nil => rfl
  | cons e l ih =>
    obtain ⟨m, s⟩ := e
    unfold candidates at ih ⊢
    cases s with
    | none => simpa using ih
    | some z =>
      by_cases hz : z ≤ 0
      · have hz' : k * z ≤ 0 := mul_nonpos_of_nonneg_of_nonpos hk.le hz
        simp [hz, hz', ih]
      · have hz' : ¬ k * z ≤ 0 := not_le.2 (mul_pos hk (not_le.1 hz))
        simp [hz, hz', ih]

private theorem absSum_scaled {k : K} (hk : 0 < k) (l : List (Fin N × K)) :
    absSum (l.map fun e => (e.1, k * e.2)) = k * absSum l := by
  unfold absSum
  rw [List.map_map, ← List.sum_map_mul_left]
  congr 1
  apply List.map_congr_left
  intro e _
  simp [abs_mul, abs_of_pos hk]

private theorem landLinks_scaled {k : K} (hk : 0 < k) (fd : Fin N → ℤ) (l : List (Fin N × Option K)) (n : Fin N) :
    landLinks fd (l.map fun e => (e.1, e.2.map fun z => k * z)) n = landLinks fd l n := by
  unfold landLinks
  rw [candidates_scaled hk]
  have hf : ∀ (p : Fin N → Bool) (t : List (Fin N × K)),
      (t.map fun e => (e.1, k * e.2)).filter (fun e => p e.1) = (t.filter fun e => p e.1).map fun e => (e.1, k * e.2) := by
    intro p t
    rw [List.filter_map]; rfl
  have hr : ∀ (x : K) (t : List (Fin N × K)), |k * x| / (k * absSum t) = |x| / absSum t := by
    intro x t
    rw [abs_mul, abs_of_pos hk, mul_div_mul_left _ _ hk.ne']
  dsimp only
  rw [hf (fun m => decide (fd m ≠ 0)), absSum_scaled hk, List.filter_map]
  simp only [Function.comp_def, hr]
  rw [absSum_scaled hk, List.map_map]
  simp only [Function.comp_def, hr]

private theorem manyToMany_scaled {k : K} (hk : 0 < k) (fdir : Fin N → ℤ) (active : Fin N → Bool) (sa : Fin N → ℤ)
    (nbs : Fin N → List (Fin N × Option K)) :
    manyToMany fdir active sa (scaled k nbs) = manyToMany fdir active sa nbs := by
  unfold manyToMany
  congr 1
  funext n
  unfold manyLinks scaled
  rw [landLinks_scaled hk]

/-- **C181** (slopes).  Multiplying all slopes by a positive number changes no cascade: the same links with the same
fractions, or the same exception. -/
theorem C181_scaled {k : K} (hk : 0 < k) (limit fuel : ℕ) (unstructured : Bool) (nbs : Fin N → List (Fin N × Option K))
    (o : Obj N) (arg : Option (Fin N → ℤ)) (active : Fin N → Bool) (many2many kwGroup : Bool) :
    cascades limit fuel unstructured (scaled k nbs) o arg active many2many kwGroup =
      cascades limit fuel unstructured nbs o arg active many2many kwGroup := by
  unfold cascades
  congr 1
  funext r
  rw [manyToMany_scaled hk]

end Field

/-- the flow-direction object with its grid and elevations in other units -/
structure Converted (S : Sim) (a c : ℝ) (fa fa' : Fa N) : Prop where
  fdir : fa'.fdir = fa.fdir
  centre : ∀ n, (fa'.xc n, fa'.yc n) = S.app (fa.xc n, fa.yc n)
  dem : ∀ n, fa'.dem n = (fa.dem n).map fun z => a * z + c
  area : ∀ n, fa'.area n = S.b ^ 2 * fa.area n

/-- the centres of the cells, for `_calculate_slopes` in exact arithmetic -/
noncomputable def Fa.geo (fa : Fa N) : Dirs.Geo N ℝ := ⟨fa.xc, fa.yc, Real.sqrt, id⟩

/-- the slopes of `_calculate_slopes` in other units -/
theorem slopeTable_converted {S : Sim} {a c : ℝ} (ha : 0 < a) {fa fa' : Fa N} (h : Converted S a c fa fa')
    (thr big : ℝ) (nbr : Fin N → List (Fin N)) :
    Pipe.slopeTable fa'.geo fa'.dem (a * thr) big nbr = scaled (a / S.b) (Pipe.slopeTable fa.geo fa.dem thr big nbr) := by
  funext n
  unfold Pipe.slopeTable scaled
  rw [List.map_map]
  apply List.map_congr_left
  intro m _
  simp only [Function.comp]
  rw [Dirs.slopeTo_affine ha (G := fa.geo) (G' := fa'.geo) (b := S.b) ⟨rfl, rfl⟩ ⟨rfl, rfl⟩ h.dem]
  apply Dirs.dist_similar S.pos ⟨rfl, rfl⟩ ⟨rfl, rfl⟩
  intro n m
  have := S.norm (fa.xc m, fa.yc m) (fa.xc n, fa.yc n)
  rw [← h.centre, ← h.centre] at this
  exact this

/-- **C181** (cascades).  If coordinates and elevations are given in other units and another coordinate system and
`burn_threshold` in the unit of the elevations, `get_cascades` returns the same cascades. -/
theorem C181_cascades {S : Sim} {a c : ℝ} (ha : 0 < a) {fa fa' : Fa N} (h : Converted S a c fa fa') (thr big : ℝ)
    (nbr : Fin N → List (Fin N)) (limit fuel : ℕ) (unstructured : Bool) (o : Obj N) (arg : Option (Fin N → ℤ))
    (active : Fin N → Bool) (many2many kwGroup : Bool) :
    cascades limit fuel unstructured (Pipe.slopeTable fa'.geo fa'.dem (a * thr) big nbr) o arg active many2many kwGroup =
      cascades limit fuel unstructured (Pipe.slopeTable fa.geo fa.dem thr big nbr) o arg active many2many kwGroup := by
  rw [slopeTable_converted ha h, C181_scaled (div_pos ha S.pos)]

/-- **C181** (builder).  The object for pyGSFLOW then has the same cascades and counts, slopes multiplied by `a / b` (if
no drop lies between the 1e-6 cut-offs of the two units, see C178), areas by `b²`; the aspect of a cell that drains to
another one is turned by the angle `θ` of the coordinate systems and mirrored with them. -/
theorem C181_builder {S : Sim} {a c : ℝ} (ha : 0 < a) {fa fa' : Fa N} (h : Converted S a c fa fa') {thr big : ℝ}
    {nbr : Fin N → List (Fin N)} {limit fuel : ℕ} {unstructured : Bool} {o : Obj N} {arg : Option (Fin N → ℤ)}
    {active : Fin N → Bool} {group many2many : Bool}
    (hclear : ∀ n m x y, pyIndex N (fa.fdir n) = .ok m → fa.dem n = some x → fa.dem m = some y → Clear a (x - y))
    {θ : ℝ} (hp : S.p = S.b * Real.cos (θ * (Real.pi / 180))) (hq : S.q = S.b * Real.sin (θ * (Real.pi / 180)))
    {d : Fin N → Fin N} (hd : Flow.Resolves fa.fdir d) {o1 : Obj N} {b : Builder N}
    (hb : builder limit fuel unstructured (Pipe.slopeTable fa.geo fa.dem thr big nbr) fa o arg active group many2many =
      .ok (o1, b)) :
    ∃ b', builder limit fuel unstructured (Pipe.slopeTable fa'.geo fa'.dem (a * thr) big nbr) fa' o arg active group
        many2many = .ok (o1, b') ∧
      b'.rows = b.rows ∧ b'.ncascade = b.ncascade ∧ b'.flag = b.flag ∧ b'.nsegments = b.nsegments ∧
      b'.nreaches = b.nreaches ∧ (∀ n, b'.slope n = (b.slope n).map fun z => a / S.b * z) ∧
      (∀ n, b'.area n = S.b ^ 2 * b.area n) ∧
      ∀ n, (d n = n → b'.aspect n = 0 ∧ b.aspect n = 0) ∧
        ((fa.xc (d n), fa.yc (d n)) ≠ (fa.xc n, fa.yc n) → ∃ k : ℤ, b'.aspect n = S.s * b.aspect n + θ + 360 * k) := by
  have hs := C178_slope (fdir := fa.fdir) S ha h.centre h.dem hclear
  unfold builder at hb ⊢
  rw [h.fdir, hs]
  cases hc : connect limit fuel unstructured o arg group with
  | err e => rw [hc] at hb; cases hb
  | hang => rw [hc] at hb; cases hb
  | ok r =>
    rw [hc] at hb
    simp only [Res.bind_ok] at hb ⊢
    rw [C181_cascades ha h]
    cases hk : cascades limit fuel unstructured (Pipe.slopeTable fa.geo fa.dem thr big nbr) r.1 r.1.streamArray active
        many2many false with
    | err e => rw [hk] at hb; cases hb
    | hang => rw [hk] at hb; cases hb
    | ok rows =>
      rw [hk] at hb
      simp only [Res.bind_ok] at hb ⊢
      obtain ⟨sa, hsa, hb⟩ := Res.bind_eq_ok.1 hb
      rw [hsa]
      simp only [Res.bind_ok]
      cases hsl : slope fa.fdir fa.xc fa.yc fa.dem with
      | err e => rw [hsl] at hb; cases hb
      | hang => rw [hsl] at hb; cases hb
      | ok s =>
        rw [hsl] at hb
        obtain ⟨asp, e1, _⟩ := C41_aspect (xc := fa.xc) (yc := fa.yc) hd
        obtain ⟨asp', e2, _⟩ := C41_aspect (xc := fa'.xc) (yc := fa'.yc) hd
        have hasp := fun n => C178_aspect S hd h.centre hp hq e1 e2 n
        rw [e1] at hb
        rw [e2]
        simp only [Res.bind_ok, Res.map_ok, Res.ok.injEq, Prod.mk.injEq] at hb ⊢
        obtain ⟨rfl, rfl⟩ := hb
        exact ⟨_, ⟨rfl, rfl⟩, rfl, rfl, rfl, rfl, rfl, fun n => rfl, h.area, hasp⟩

/-! ### a concrete case: four cells, in metres and in another unit, turned by a quarter -/

noncomputable def exFa : Fa 4 := ⟨exObj.fdir, ![0, 1, 0, 1], ![1, 1, 0, 0], ![some 40, some 30, some 20, some 10], fun _ => 1⟩
noncomputable def exFa' : Fa 4 := ⟨exObj.fdir, ![-3, -3, 0, 0], ![0, 3, 0, 3], ![some 220, some 190, some 160, some 130],
  fun _ => 9⟩

theorem ex_converted : Converted Pipe.simSq 3 100 exFa exFa' := by
  constructor
  · rfl
  · intro n; fin_cases n <;> norm_num [exFa, exFa', Sim.app, Pipe.simSq]
  · intro n; fin_cases n <;> norm_num [exFa, exFa']
  · intro n; norm_num [exFa, exFa', Pipe.simSq]

example : ∃ o1 b b', builder 9 9 false (Pipe.slopeTable exFa.geo exFa.dem 1 (10 ^ 10) fun _ => [0, 1, 2, 3]) exFa exObj none
      (fun _ => true) true true = .ok (o1, b) ∧
    builder 9 9 false (Pipe.slopeTable exFa'.geo exFa'.dem (3 * 1) (10 ^ 10) fun _ => [0, 1, 2, 3]) exFa' exObj none
      (fun _ => true) true true = .ok (o1, b') ∧
    b'.rows = b.rows ∧ ∃ k : ℤ, b'.aspect 0 = 1 * b.aspect 0 + 90 + 360 * k := by
  have hr : Flow.Resolves exFa.fdir (![2, 2, 3, 3] : Fin 4 → Fin 4) := by
    apply Flow.Legal.resolves
    intro n; fin_cases n <;> rfl
  obtain ⟨⟨o1, b⟩, hb⟩ := C88_succeeds (nbs := Pipe.slopeTable exFa.geo exFa.dem 1 (10 ^ 10) fun _ => [0, 1, 2, 3])
    (fa := exFa) (limit := 9) (fuel := 9) (u := false) (active := fun _ => true) (many := true) (group := true) (arg := none) exLegal ⟨_, by exact exLegal⟩
    (by decide) (sa := ![1, 1, 1, 1]) (o := exObj)
    (by rw [if_pos rfl]; exact (cellsFit_of_count (by decide +kernel)).segs) rfl (.inr rfl)
  have hcl : ∀ n m x y, pyIndex 4 (exFa.fdir n) = .ok m → exFa.dem n = some x → exFa.dem m = some y → Clear 3 (x - y) := by
    intro n m x y hm hx hy
    have hm' : m = (![2, 2, 3, 3] : Fin 4 → Fin 4) n := by
      have : ∀ k : Fin 4, pyIndex 4 (exObj.fdir k) = .ok ((![2, 2, 3, 3] : Fin 4 → Fin 4) k) := by decide
      have e := this n
      rw [show exObj.fdir n = exFa.fdir n from rfl, hm] at e
      exact Res.ok.inj e
    subst hm'
    fin_cases n <;> simp [exFa] at hx hy <;> subst hx hy <;> norm_num [Clear]
  have h90 : (90 : ℝ) * (Real.pi / 180) = Real.pi / 2 := by ring
  obtain ⟨b', hb', h1, _, _, _, _, _, _, h2⟩ := C181_builder (by norm_num : (0 : ℝ) < 3) ex_converted (θ := 90) hcl
    (by rw [h90, Real.cos_pi_div_two]; simp [Pipe.simSq]) (by rw [h90, Real.sin_pi_div_two]; simp [Pipe.simSq]) hr hb
  exact ⟨o1, b, b', hb, hb', h1, (h2 0).2 (by simp [exFa])⟩

end Dany.Prms
