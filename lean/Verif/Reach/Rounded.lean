import Verif.Reach.PackProps
import Verif.Reach.Units
import Verif.Rdata.Rounded
import Verif.Float.Getters
import Verif.Float.Nan

/-!
# C215: the table of `packagedata` in floating point

`packagedata` (stream_util.py:538-641) with every operation rounded.
-/

namespace Dany.Reach

open Dirs (Geo flatten)
open Float (Sums SumOK sumSeq slopeG Machine Double rnd64 rnd64_nearest rel_err add_err way SqrtOK sqrt64 Sized)
open Rdata (Corr Near near_of_rat pow_of_real corr_bind corr_map corr_refl)
open Flow (Resolves)

variable {N : ℕ}

/-- one side of a polygon (stream_util.py:598-601) -/
def sideF (r sqrt : ℚ → ℚ) (a b : ℚ × ℚ) : ℚ := sqrt (r (r (r (a.1 - b.1) ^ 2) + r (r (a.2 - b.2) ^ 2)))

/-- the sides the code measures (stream_util.py:596-602), as `sides` -/
def sidesF (r sqrt : ℚ → ℚ) : List (ℚ × ℚ) → List ℚ
  | a :: b :: l => sideF r sqrt a b :: sidesF r sqrt (b :: l)
  | _ => []

/-- `np.nanmean(dist)` (stream_util.py:603), with `sum` for NumPy's summation; `none` is NaN -/
def outletF (r sqrt : ℚ → ℚ) (sum : List ℚ → ℚ) (verts : List (ℚ × ℚ)) : Option ℚ :=
  match sidesF r sqrt verts with
  | [] => none
  | l => some (r (sum l / l.length))

/-- what `packagedata` reads: cell centres, square root and rounding; polygons, `_slope` (`none`: infinite), elevations
(`none`: NaN) -/
structure GridF (N : ℕ) where
  geo : Geo N ℚ
  poly : Fin N → List (ℚ × ℚ)
  slope : Fin N → Option ℚ
  top : Fin N → Option ℚ

/-- `rlen` (stream_util.py:589-605) of a reach in `node` that flows to `dn` -/
def rlenF (sum : List ℚ → ℚ) (G : GridF N) (node dn : Fin N) : Option ℚ :=
  let dist := G.geo.dist dn node
  (if dist = 0 then outletF G.geo.rnd G.geo.sqrt sum (G.poly node) else some dist).map fun x => G.geo.rnd (x * (3 / 2))

/-- `rgrd` (stream_util.py:613) -/
def rgrdF (G : GridF N) (node : Fin N) : Option ℚ := (G.slope node).map fun s => G.geo.rnd (s / (3 / 2))

/-- one record (stream_util.py:583-621), as `pRecord` -/
def pRecordF (sum : List ℚ → ℚ) (G : GridF N) (sa : Fin N → ℤ) (cd : List (ℤ × List ℤ)) (e : ℤ × Option ℤ) (cnt : ℕ) :
    Res (PRec N (Option ℚ)) :=
  (firstNode sa e.1).bind fun node => (dnNode sa node e.2).bind fun dn =>
    match cd[cnt]? with
    | none => .err .indexError
    | some row => .ok ⟨e.1 - 1, node, rlenF sum G node dn, rgrdF G node, G.top node, row.2.length⟩

/-- the loop over the sorted graph (stream_util.py:581-621) -/
def pRecordsF (sum : List ℚ → ℚ) (G : GridF N) (sa : Fin N → ℤ) (cd : List (ℤ × List ℤ)) :
    List (ℤ × Option ℤ) → ℕ → Res (List (PRec N (Option ℚ)))
  | [], _ => .ok []
  | e :: es, cnt => (pRecordF sum G sa cd e cnt).bind fun r =>
      (pRecordsF sum G sa cd es (cnt + 1)).map (r :: ·)

/-- `packagedata` from the graph and the stream array on (stream_util.py:574-641) -/
def packageRowsF (sum : List ℚ → ℚ) (G : GridF N) (sa : Fin N → ℤ) (g : Dict ℤ (Option ℤ)) :
    Res (List (PRec N (Option ℚ))) :=
  (connectiondata g).bind fun cd => pRecordsF sum G sa cd (sortItems g) 0

/-- `packagedata()` (stream_util.py:558-641) -/
def Obj.packageDataF (sum : List ℚ → ℚ) (G : GridF N) (limit : ℕ) (o : Obj N) :
    Option (Fin N → ℤ) → Res (Obj N × List (PRec N (Option ℚ)))
  | some sa => (o.connectivity limit (some sa)).bind fun r =>
      (packageRowsF sum G sa (someVals r.2)).map fun l => (r.1, l)
  | none => (o.graphOf limit).bind fun r =>
      r.1.stream.bind fun sa => (packageRowsF sum G sa r.2).map fun l => (r.1, l)

/-! ### the rounded run beside an exact run whose lengths name the downstream cell -/

/-- a grid on a line without three equally spaced cells -/
def markG (N : ℕ) : Grid N ℚ := ⟨fun n => 2 ^ n.val, fun _ => 0, fun _ => 0, fun _ => 0, fun _ => 0⟩

theorem markG_len (n m : Fin N) : rlenOf id (markG N) n m = ((2 ^ n.val : ℚ) - 2 ^ m.val) ^ 2 * (3 / 2) := by
  unfold rlenOf
  split
  · rename_i h
    simp only [markG, id] at h ⊢
    have : ((2 ^ n.val : ℚ) - 2 ^ m.val) ^ 2 = 0 := by linarith
    rw [this]
  · simp only [markG, id]; ring

theorem pow_mid {n m k : ℕ} (h : 2 ^ m + 2 ^ k = 2 * 2 ^ n) (hmk : m < k) : False := by
  obtain ⟨j, rfl⟩ := Nat.exists_eq_add_of_lt hmk
  have e : 2 ^ m + 2 ^ (m + j + 1) = 2 ^ m * (1 + 2 * 2 ^ j) := by ring
  rw [e] at h
  rcases le_or_gt m n with hn | hn
  · obtain ⟨i, rfl⟩ := Nat.exists_eq_add_of_le hn
    have e2 : 2 * 2 ^ (m + i) = 2 ^ m * (2 * 2 ^ i) := by ring
    rw [e2] at h
    have := Nat.eq_of_mul_eq_mul_left (by positivity) h
    omega
  · have h1 : 2 ^ (n + 1) ≤ 2 ^ m := Nat.pow_le_pow_right (by norm_num) hn
    have h2 : 1 ≤ 2 ^ j := Nat.one_le_two_pow
    rw [pow_succ] at h1
    have h3 : 2 ^ m * (1 + 2 * 1) ≤ 2 ^ m * (1 + 2 * 2 ^ j) := Nat.mul_le_mul_left _ (by omega)
    have h4 : 1 ≤ 2 ^ m := Nat.one_le_two_pow
    omega

theorem markG_inj {n m k : Fin N} (h : rlenOf id (markG N) n m = rlenOf id (markG N) n k) : m = k := by
  rw [markG_len, markG_len] at h
  have h' : ((2 ^ n.val : ℚ) - 2 ^ m.val) ^ 2 = (2 ^ n.val - 2 ^ k.val) ^ 2 := by linarith
  rcases sq_eq_sq_iff_eq_or_eq_neg.1 h' with h | h
  · have : (2 : ℚ) ^ m.val = 2 ^ k.val := by linarith
    have : 2 ^ m.val = 2 ^ k.val := by exact_mod_cast this
    exact Fin.ext (Nat.pow_right_injective (le_refl 2) this)
  · have : (2 : ℚ) ^ m.val + 2 ^ k.val = 2 * 2 ^ n.val := by linarith
    have this : 2 ^ m.val + 2 ^ k.val = 2 * 2 ^ n.val := by exact_mod_cast this
    rcases lt_trichotomy m.val k.val with hl | hl | hl
    · exact (pow_mid this hl).elim
    · exact Fin.ext hl
    · exact (pow_mid (by rw [add_comm]; exact this) hl).elim

/-- corresponding records -/
def PRel (sum : List ℚ → ℚ) (G : GridF N) (w : PRec N ℚ) (w' : PRec N (Option ℚ)) : Prop :=
  ∃ dn, w.rlen = rlenOf id (markG N) w.node dn ∧
    w' = ⟨w.ifno, w.node, rlenF sum G w.node dn, rgrdF G w.node, G.top w.node, w.ncon⟩

variable {sum : List ℚ → ℚ} {G : GridF N} {sa : Fin N → ℤ} {d : Fin N → Fin N}

theorem pRecordF_rel (sa : Fin N → ℤ) (cd : List (ℤ × List ℤ)) (e : ℤ × Option ℤ) (cnt : ℕ) :
    Corr (PRel sum G) (pRecord id (markG N) sa cd e cnt) (pRecordF sum G sa cd e cnt) := by
  unfold pRecord pRecordF
  cases firstNode sa e.1 with
  | err e => exact rfl
  | hang => trivial
  | ok node =>
    simp only [Res.bind_ok]
    cases dnNode sa node e.2 with
    | err e => exact rfl
    | hang => trivial
    | ok dn =>
      simp only [Res.bind_ok]
      cases cd[cnt]? with
      | none => exact rfl
      | some row => exact ⟨dn, rfl, rfl⟩

theorem pRecordsF_rel (sa : Fin N → ℤ) (cd : List (ℤ × List ℤ)) (es : List (ℤ × Option ℤ)) (cnt : ℕ) :
    Corr (List.Forall₂ (PRel sum G)) (pRecords id (markG N) sa cd es cnt) (pRecordsF sum G sa cd es cnt) := by
  induction es generalizing cnt with
  | nil => exact List.Forall₂.nil
  | cons e es ih =>
    exact corr_bind (pRecordF_rel sa cd e cnt) fun u v huv => corr_map (ih _) fun x y hxy => List.Forall₂.cons huv hxy

theorem packageDataF_rel (limit : ℕ) (o : Obj N) (arg : Option (Fin N → ℤ)) :
    Corr (fun x y => y.1 = x.1 ∧ List.Forall₂ (PRel sum G) x.2 y.2) (o.packageData id (markG N) limit arg)
      (o.packageDataF sum G limit arg) := by
  have rows : ∀ (sa : Fin N → ℤ) g, Corr (List.Forall₂ (PRel sum G)) (packageRows id (markG N) sa g) (packageRowsF sum G sa g) := by
    intro sa g
    refine corr_bind (R := Eq) (corr_refl (fun _ => rfl) _) ?_
    rintro u _ rfl
    exact pRecordsF_rel sa u _ 0
  cases arg with
  | some sa =>
    refine corr_bind (R := Eq) (corr_refl (fun _ => rfl) _) ?_
    rintro u _ rfl
    exact corr_map (rows _ _) fun x y h => ⟨rfl, h⟩
  | none =>
    refine corr_bind (R := Eq) (corr_refl (fun _ => rfl) _) ?_
    rintro u _ rfl
    refine corr_bind (R := Eq) (corr_refl (fun _ => rfl) _) ?_
    rintro s _ rfl
    exact corr_map (rows _ _) fun x y h => ⟨rfl, h⟩

/-- **C215**, operation by operation: one record per stream cell, in the order of the reach numbers, with the length and the
gradient as computed. -/
theorem C215_values {o o' : Obj N} (hd : Resolves o.fdir d) {limit : ℕ} (hsa : o.streamArray = some sa)
    {g : Dict ℤ ℤ} (hg : o.connectivity limit none = .ok (o', g)) :
    ∃ sa' recs rows, o'.streamArray = some sa' ∧ o'.packageDataF sum G limit none = .ok (o', recs) ∧
      o'.connData limit = .ok (o', rows) ∧ recs.length = nStream sa ∧
      ∀ n, sa n ≠ 0 → ∃ i : ℕ, sa' n = (i : ℤ) + 1 ∧ ∃ rec row, recs[i]? = some rec ∧ rows[i]? = some row ∧
        rec.ifno = i ∧ rec.node = n ∧ rec.ncon = row.2.length ∧ rec.rtp = G.top n ∧
        rec.rgrd = (G.slope n).map (fun s => G.geo.rnd (s / (3 / 2))) ∧
        rec.rlen = rlenF sum G n (if sa (d n) = 0 then n else d n) := by
  obtain ⟨sa', recs, rows, h1, h2, h3, h4, -, h5⟩ := C54_packagedata (sqrt := id) (G := markG N) hd hsa hg
  have hrel := packageDataF_rel (sum := sum) (G := G) limit o' none
  rw [h2] at hrel
  cases hx : o'.packageDataF sum G limit none with
  | err e => rw [hx] at hrel; exact hrel.elim
  | hang => rw [hx] at hrel; exact hrel.elim
  | ok x =>
    rw [hx] at hrel
    obtain ⟨o1, recsF⟩ := x
    obtain ⟨rfl, hf⟩ := hrel
    refine ⟨sa', recsF, rows, h1, rfl, h3, by rw [← hf.length_eq, h4], fun n hn => ?_⟩
    obtain ⟨i, e1, rec, row, e2, e3, -, e4, e5, e6, -, -, e7⟩ := h5 n hn
    obtain ⟨hi, rfl⟩ := List.getElem?_eq_some_iff.1 e2
    have hi' : i < recsF.length := hf.length_eq ▸ hi
    obtain ⟨dn, k1, k2⟩ := hf.get hi hi'
    simp only [List.get_eq_getElem] at k1 k2
    refine ⟨i, e1, recsF[i], row, List.getElem?_eq_getElem hi', e3, ?_⟩
    rw [k2, e5]
    rw [e5, e7] at k1
    rw [markG_inj k1]
    exact ⟨e4, rfl, e6, rfl, rfl, rfl⟩

/-! ### errors -/

/-- the grid of C214 with these centres -/
def asS (G : Geo N ℚ) : Rdata.SGrid N ℚ := ⟨1, G.xc, G.yc, fun _ => none, fun _ => 0, fun _ => 0, G.sqrt⟩

theorem geo_asS {G : Geo N ℚ} (h : G.rnd = rnd64) : Rdata.geo rnd64 (asS G) = G := by
  cases G; cases h; rfl

variable {nbr : Fin N → List (Fin N)}

theorem near_abs {u x y : ℝ} (h : Near u x y) : |x - y| ≤ y * u := by
  rw [abs_le]
  constructor <;> nlinarith [h.1, h.2]

theorem lenF_near (hM : Machine G.geo nbr) {n m : Fin N} (hn : n ∈ nbr m) (hfar : 2 ^ (-100 : ℤ) ≤ way G.geo m n) :
    ∃ x, rlenF sum G n m = some x ∧ Near (1 / 2 ^ 49) (x : ℝ) (3 / 2 * way G.geo m n) := by
  have hM' : Machine (Rdata.geo rnd64 (asS G.geo)) nbr := by rw [geo_asS hM.rnd]; exact hM
  have h := Rdata.len_near hM' hn hfar
  have h0 : G.geo.dist m n ≠ 0 := (hM.dist_pos m n hn).ne'
  refine ⟨rnd64 (G.geo.dist m n * (3 / 2)), ?_, ?_⟩
  · unfold rlenF
    dsimp only
    rw [if_neg h0, hM.rnd]
    rfl
  · have e : Rdata.lenF rnd64 (asS G.geo) n m = rnd64 (G.geo.dist m n * (3 / 2)) := by
      unfold Rdata.lenF
      rw [geo_asS hM.rnd]
    rw [e] at h
    exact h

/-- **C215** (length): where a reach's cell `n` flows to another stream cell `m`, the length is 1.5 times the distance of the
centres up to a fraction of 2^-49, and positive. -/
theorem C215_length (hM : Machine G.geo nbr) {n m : Fin N} (hn : n ∈ nbr m) (hfar : 2 ^ (-100 : ℤ) ≤ way G.geo m n) :
    ∃ x, rlenF sum G n m = some x ∧ 0 < x ∧ |(x : ℝ) - 3 / 2 * way G.geo m n| ≤ 3 / 2 * way G.geo m n / 2 ^ 49 := by
  obtain ⟨x, h1, h2⟩ := lenF_near (sum := sum) hM hn hfar
  have hp : 0 < way G.geo m n := lt_of_lt_of_le (by positivity) hfar
  refine ⟨x, h1, ?_, ?_⟩
  · have := h2.pos (by norm_num) (by positivity)
    exact_mod_cast this
  · have := near_abs h2
    rw [mul_one_div] at this
    exact this

/-- the constant 1e-06 of `slope` -/
def micro : ℚ := rnd64 (1 / 1000000)

theorem micro_mem : micro ∈ Double := rnd64_nearest.mem _

theorem micro_size : 1 / 2 ^ 20 ≤ micro ∧ micro ≤ 1 / 2 ^ 19 := by constructor <;> decide +kernel

/-- **C215** (gradient): if the water falls by 1e-6 or more from `n` to `m`, the gradient is drop over length up to a fraction of
2^-47, positive, and length times gradient gives back the drop up to a fraction of 2^-45. -/
theorem C215_gradient (hM : Machine G.geo nbr) {n m : Fin N} (hne : m ≠ n) (hn : n ∈ nbr m)
    (hfar : 2 ^ (-100 : ℤ) ≤ way G.geo m n) {fdir : Fin N → ℤ} (hd : Resolves fdir d) (hm : d n = m)
    (hs : slopeG G.geo G.top micro fdir = .ok G.slope)
    {a b : ℚ} (ha : G.top n = some a) (hb : G.top m = some b) (hda : a ∈ Double) (hdb : b ∈ Double) (hdrop : micro ≤ a - b) :
    ∃ x y, rlenF sum G n m = some x ∧ rgrdF G n = some y ∧ 0 < y ∧
      |(y : ℝ) - ((a - b : ℚ) : ℝ) / (3 / 2 * way G.geo m n)| ≤ ((a - b : ℚ) : ℝ) / (3 / 2 * way G.geo m n) / 2 ^ 47 ∧
      |(x : ℝ) * y - ((a - b : ℚ) : ℝ)| ≤ ((a - b : ℚ) : ℝ) / 2 ^ 45 := by
  obtain ⟨x, hx, hxn⟩ := lenF_near (sum := sum) hM hn hfar
  have hp : 0 < way G.geo m n := lt_of_lt_of_le (by positivity) hfar
  have hM' : Machine (Rdata.geo rnd64 (asS G.geo)) nbr := by rw [geo_asS hM.rnd]; exact hM
  have h1 : Near (1 / 2 ^ 50) (G.geo.dist m n : ℝ) (way G.geo m n) := by
    have := Rdata.dist_near hM' hn
    rw [geo_asS hM.rnd] at this
    exact this
  have hl0 : 0 < G.geo.dist m n := hM.dist_pos m n hn
  have hab : 1 / 2 ^ 20 ≤ a - b := micro_size.1.trans hdrop
  have hab0 : 0 < a - b := lt_of_lt_of_le (by norm_num) hab
  have hfl : flatten micro (rnd64 (a - b)) = rnd64 (a - b) := by
    refine if_neg fun h => absurd h.1 (not_lt.2 ?_)
    rw [← rnd64_nearest.exact micro_mem]
    exact rnd64_nearest.mono hdrop
  have hsl : G.slope n = some (rnd64 (rnd64 (a - b) / G.geo.dist m n)) := by
    unfold slopeG at hs
    rw [Geom.targets_ok hd] at hs
    have := congrFun (Res.ok.inj hs) n
    rw [← this]
    dsimp only
    rw [hm, ha, hb]
    dsimp only
    rw [if_neg hl0.ne', hM.rnd, hfl]
  have e1 := add_err (p := 53) (emin := -1022) (by norm_num) rnd64_nearest hda (Float.neg_mem hdb)
  rw [← sub_eq_add_neg] at e1
  have n1 := near_of_rat hab0.le e1
  have n2 := n1.div h1 (by exact_mod_cast hab0.le) (by positivity) (by norm_num) (by norm_num) (by norm_num) (by norm_num)
  set D : ℝ := ((a - b : ℚ) : ℝ) with hD
  have hD0 : 0 < D := by rw [hD]; exact_mod_cast hab0
  set T : ℝ := D / way G.geo m n with hT
  have hwide : way G.geo m n ≤ 2 ^ 99 := by
    refine Real.sqrt_le_iff.2 ⟨by positivity, ?_⟩
    have := (hM.way2_bounds hn).2
    have h' : ((Float.way2 G.geo m n : ℚ) : ℝ) ≤ 2 ^ 197 := by exact_mod_cast this
    refine le_trans (le_of_eq ?_) (h'.trans (by norm_num))
    rfl
  have hTlow : (2 : ℝ) ^ (-119 : ℤ) ≤ T := by
    rw [hT, le_div_iff₀ hp]
    have k1 : (1 : ℝ) / 2 ^ 20 ≤ D := by
      have := (Rat.cast_le (K := ℝ)).2 hab
      push_cast at this ⊢
      rw [hD]
      push_cast
      exact this
    refine le_trans ?_ k1
    have : (2 : ℝ) ^ (-119 : ℤ) * way G.geo m n ≤ 2 ^ (-119 : ℤ) * 2 ^ 99 :=
      mul_le_mul_of_nonneg_left hwide (by positivity)
    refine this.trans ?_
    norm_num
  have hT0 : 0 < T := lt_of_lt_of_le (by positivity) hTlow
  have n2' : Near (1 / 2 ^ 48) ((rnd64 (a - b) / G.geo.dist m n : ℚ) : ℝ) T := by
    push_cast
    exact n2.weaken (by norm_num) hT0.le
  set q : ℚ := rnd64 (a - b) / G.geo.dist m n
  have hq : (2 : ℝ) ^ (-120 : ℤ) ≤ (q : ℝ) := by
    refine le_trans ?_ n2'.1
    have : (2 : ℝ) ^ (-120 : ℤ) ≤ 2 ^ (-119 : ℤ) * (1 - 1 / 2 ^ 48) := by norm_num
    exact this.trans (mul_le_mul_of_nonneg_right hTlow (by norm_num))
  have hq' : (2 : ℚ) ^ (-120 : ℤ) ≤ q := pow_of_real _ hq
  have hq0 : 0 < q := lt_of_lt_of_le (by positivity) hq'
  have n3 := near_of_rat hq0.le (rel_err (p := 53) (emin := -1022) (by norm_num) rnd64_nearest (x := q) (by
    rw [abs_of_pos hq0]
    exact (zpow_le_zpow_right₀ (by norm_num) (by norm_num)).trans hq'))
  have n4 := n3.trans n2' hT0.le (by norm_num) (by norm_num) (by norm_num)
  have n5 := n4.scale (c := 2 / 3) (by norm_num)
  have n4' := n4.weaken (v := 1 / 2) (by norm_num) hT0.le
  have hg : (2 : ℝ) ^ (-122 : ℤ) ≤ ((rnd64 q / (3 / 2) : ℚ) : ℝ) := by
    push_cast
    have k : (2 : ℝ) ^ (-122 : ℤ) ≤ 2 ^ (-119 : ℤ) * (1 - 1 / 2) * (2 / 3) := by norm_num
    have k2 := n4'.1
    have k3 : (2 : ℝ) ^ (-119 : ℤ) * (1 - 1 / 2) ≤ T * (1 - 1 / 2) := mul_le_mul_of_nonneg_right hTlow (by norm_num)
    have e : (rnd64 q : ℝ) / (3 / 2) = rnd64 q * (2 / 3) := by ring
    rw [e]
    linarith
  have hg' : (2 : ℚ) ^ (-122 : ℤ) ≤ rnd64 q / (3 / 2) := pow_of_real _ hg
  have hg0 : 0 < rnd64 q / (3 / 2) := lt_of_lt_of_le (by positivity) hg'
  have n6 := near_of_rat hg0.le (rel_err (p := 53) (emin := -1022) (by norm_num) rnd64_nearest (x := rnd64 q / (3 / 2)) (by
    rw [abs_of_pos hg0]
    exact (zpow_le_zpow_right₀ (by norm_num) (by norm_num)).trans hg'))
  have e2 : ((rnd64 q / (3 / 2) : ℚ) : ℝ) = (rnd64 q : ℝ) * (2 / 3) := by push_cast; ring
  rw [e2] at n6
  have n7 := (n6.trans n5 (by positivity) (by norm_num) (by norm_num) (by norm_num)).weaken (v := 1 / 2 ^ 47)
    (by norm_num) (by positivity)
  have e3 : T * (2 / 3) = D / (3 / 2 * way G.geo m n) := by rw [hT]; field_simp
  rw [e3] at n7
  have hY0 : 0 < D / (3 / 2 * way G.geo m n) := by positivity
  refine ⟨x, rnd64 (rnd64 q / (3 / 2)), hx, ?_, ?_, ?_, ?_⟩
  · unfold rgrdF
    rw [hsl, hM.rnd]
    rfl
  · have := n7.pos (by norm_num) hY0
    exact_mod_cast this
  · have := near_abs n7
    rw [mul_one_div] at this
    exact this
  · set W := 3 / 2 * way G.geo m n with hW
    have hW0 : 0 < W := by positivity
    set y := (rnd64 (rnd64 q / (3 / 2)) : ℝ)
    have hy0 : 0 ≤ y := (n7.pos (by norm_num) hY0).le
    have m1 : Near (1 / 2 ^ 49) (x * y) (W * y) := hxn.scale hy0
    have m2 : Near (1 / 2 ^ 47) (y * W) (D / W * W) := n7.scale hW0.le
    rw [div_mul_cancel₀ _ hW0.ne', mul_comm y W] at m2
    have m3 := (m1.trans m2 hD0.le (by norm_num) (by norm_num) (by norm_num)).weaken (v := 1 / 2 ^ 45) (by norm_num) hD0.le
    have := near_abs m3
    rw [mul_one_div] at this
    exact this

/-! ### outlets -/

/-- a point with real coordinates -/
def realPt (p : ℚ × ℚ) : ℝ × ℝ := ((p.1 : ℝ), (p.2 : ℝ))

/-- the mean of the sides that are measured -/
noncomputable def meanReal (l : List (ℚ × ℚ)) : ℝ :=
  (∑ i ∈ Finset.range (l.length - 1), planeDist (realPt (l.getD i (0, 0))) (realPt (l.getD (i + 1) (0, 0)))) / (l.length - 1 : ℕ)

/-- the polygon is stored in doubles, and the coordinates of its vertices differ by amounts of a reasonable size -/
structure Fine (l : List (ℚ × ℚ)) : Prop where
  x : ∀ p ∈ l, p.1 ∈ Double ∧ p.2 ∈ Double
  sized : ∀ i (h : i + 1 < l.length), Sized (l[i].1 - l[i + 1].1) ∧ Sized (l[i].2 - l[i + 1].2)

theorem Fine.tail {a : ℚ × ℚ} {l : List (ℚ × ℚ)} (h : Fine (a :: l)) : Fine l :=
  ⟨fun p hp => h.x p (by simp [hp]), fun i hi => h.sized (i + 1) (by simpa using hi)⟩

theorem side_near {sqrt : ℚ → ℚ} (hq : SqrtOK sqrt) (h0 : sqrt 0 = 0) {a b : ℚ × ℚ} (ha : a.1 ∈ Double ∧ a.2 ∈ Double)
    (hb : b.1 ∈ Double ∧ b.2 ∈ Double) (hs : Sized (a.1 - b.1) ∧ Sized (a.2 - b.2)) :
    Near (1 / 2 ^ 50) (sideF rnd64 sqrt a b : ℝ) (planeDist (realPt a) (realPt b)) := by
  have hz : rnd64 0 = 0 := rnd64_nearest.exact (Float.zero_mem _ _)
  by_cases hne : a.1 - b.1 ≠ 0 ∨ a.2 - b.2 ≠ 0
  · let G2 : Geo 2 ℚ := ⟨![b.1, a.1], ![b.2, a.2], sqrt, rnd64⟩
    have hM : Machine G2 ![[1], []] := by
      refine ⟨rfl, hq, ?_, ?_, ?_, ?_⟩
      · intro n; fin_cases n; exacts [hb.1, ha.1]
      · intro n; fin_cases n; exacts [hb.2, ha.2]
      · intro n m hm
        fin_cases n
        · simp at hm; subst hm; exact hs
        · simp at hm
      · intro n m hm
        fin_cases n
        · simp at hm; subst hm; exact hne
        · simp at hm
    have h := hM.dist (n := 0) (m := 1) (by simp)
    have e1 : G2.dist 0 1 = sideF rnd64 sqrt a b := rfl
    have e2 : way G2 0 1 = planeDist (realPt a) (realPt b) := by
      unfold way planeDist realPt
      push_cast
      rfl
    rw [e1, e2] at h
    have hp : 0 ≤ planeDist (realPt a) (realPt b) := Real.sqrt_nonneg _
    exact ⟨le_trans (mul_le_mul_of_nonneg_left (by norm_num) hp) h.1, h.2.trans (mul_le_mul_of_nonneg_left (by norm_num) hp)⟩
  · push Not at hne
    have e1 : sideF rnd64 sqrt a b = 0 := by
      unfold sideF
      rw [hne.1, hne.2, hz]
      norm_num
      rw [hz, add_zero, hz, h0]
    have e2 : realPt a = realPt b := by
      have h1 : a.1 = b.1 := by linarith [hne.1]
      have h2 : a.2 = b.2 := by linarith [hne.2]
      unfold realPt
      rw [h1, h2]
    rw [e1, e2, planeDist_self]
    constructor <;> simp

theorem sides_near {sqrt : ℚ → ℚ} (hq : SqrtOK sqrt) (h0 : sqrt 0 = 0) {l : List (ℚ × ℚ)} (hl : Fine l) :
    List.Forall₂ (fun (x : ℚ) (y : ℝ) => (0 : ℝ) ≤ y ∧ Near (1 / 2 ^ 50) (x : ℝ) y) (sidesF rnd64 sqrt l)
      (sides Real.sqrt (l.map realPt)) := by
  induction l with
  | nil => exact .nil
  | cons a l ih =>
    cases l with
    | nil => exact .nil
    | cons b l =>
      refine .cons ⟨Real.sqrt_nonneg _, ?_⟩ (ih hl.tail)
      exact side_near hq h0 (hl.x a (by simp)) (hl.x b (by simp)) (hl.sized 0 (by simp))

theorem near_sum {u : ℝ} {l : List ℚ} {m : List ℝ} (h : List.Forall₂ (fun (x : ℚ) (y : ℝ) => (0 : ℝ) ≤ y ∧ Near u (x : ℝ) y) l m) :
    Near u ((l.sum : ℚ) : ℝ) m.sum ∧ 0 ≤ m.sum := by
  induction h with
  | nil => exact ⟨by constructor <;> simp, by simp⟩
  | cons h _ ih =>
    obtain ⟨k1, k2⟩ := ih
    simp only [List.sum_cons]
    rw [Rat.cast_add]
    exact ⟨⟨by nlinarith [h.2.1, k1.1], by nlinarith [h.2.2, k1.2]⟩, by linarith [h.1]⟩

theorem within_weaken {k l : ℕ} {x y : ℚ} (h : Float.Within k x y) (hkl : k ≤ l) (hy : 0 ≤ y) : Float.Within l x y := by
  constructor
  · refine le_trans (mul_le_mul_of_nonneg_left ?_ hy) h.1
    exact pow_le_pow_of_le_one (by norm_num) (by norm_num) hkl
  · refine h.2.trans (mul_le_mul_of_nonneg_left ?_ hy)
    exact pow_le_pow_right₀ (by norm_num) hkl

/-- a sum of numbers that are not negative, added in any order -/
theorem sums_within {l : List ℚ} {s : ℚ} (h : Sums rnd64 l s) (hl : ∀ x ∈ l, x ∈ Double ∧ 0 ≤ x) :
    s ∈ Double ∧ 0 ≤ l.sum ∧ 1 ≤ l.length ∧ Float.Within (l.length - 1) s l.sum := by
  induction h with
  | one x => exact ⟨(hl x (by simp)).1, by simpa using (hl x (by simp)).2, le_refl _, by constructor <;> simp⟩
  | @add l l' a b ha hb iha ihb =>
    obtain ⟨a1, a2, a3, a4⟩ := iha fun x hx => hl x (by simp [hx])
    obtain ⟨b1, b2, b3, b4⟩ := ihb fun x hx => hl x (by simp [hx])
    simp only [List.sum_append, List.length_append]
    refine ⟨rnd64_nearest.mem _, by linarith, by omega, ?_⟩
    have h1 : Float.Within (l.length - 1 + (l'.length - 1)) (a + b) (l.sum + l'.sum) :=
      (within_weaken a4 (by omega) a2).add (within_weaken b4 (by omega) b2)
    have h0 : 0 ≤ a + b := le_trans (mul_nonneg (by linarith) (pow_nonneg (by norm_num) _)) h1.1
    have h2 := Float.within_of_err h0 (add_err (p := 53) (emin := -1022) (by norm_num) rnd64_nearest a1 b1)
    have := h2.trans h1
    have e : 1 + (l.length - 1 + (l'.length - 1)) = l.length + l'.length - 1 := by omega
    rwa [e] at this
  | perm h hp ih =>
    obtain ⟨a1, a2, a3, a4⟩ := ih fun x hx => hl x (hp.mem_iff.1 hx)
    rw [← hp.sum_eq, ← hp.length_eq]
    exact ⟨a1, a2, a3, a4⟩

theorem near_of_within {k : ℕ} (hk : k ≤ 255) {x y : ℚ} (hy : 0 ≤ y) (h : Float.Within k x y) :
    Near (1 / 2 ^ 44) (x : ℝ) (y : ℝ) := by
  have h' := within_weaken h hk hy
  have h1 : (1 + 1 / 2 ^ 53 : ℚ) ^ 255 ≤ 1 + 1 / 2 ^ 44 := by decide +kernel
  have h2 : (1 - 1 / 2 ^ 44 : ℚ) ≤ (1 - 1 / 2 ^ 53) ^ 255 := by decide +kernel
  have k1 : y * (1 - 1 / 2 ^ 44) ≤ x := le_trans (mul_le_mul_of_nonneg_left h2 hy) h'.1
  have k2 : x ≤ y * (1 + 1 / 2 ^ 44) := h'.2.trans (mul_le_mul_of_nonneg_left h1 hy)
  constructor
  · have := (Rat.cast_le (K := ℝ)).2 k1
    push_cast at this ⊢
    exact this
  · have := (Rat.cast_le (K := ℝ)).2 k2
    push_cast at this ⊢
    exact this

theorem sidesF_length (r sqrt : ℚ → ℚ) : ∀ l : List (ℚ × ℚ), (sidesF r sqrt l).length = l.length - 1
  | [] => rfl
  | [_] => rfl
  | _ :: b :: l => by rw [sidesF, List.length_cons, sidesF_length r sqrt (b :: l)]; rfl

theorem sides_real (l : List (ℚ × ℚ)) : (sides Real.sqrt (l.map realPt)).sum =
    ∑ i ∈ Finset.range (l.length - 1), planeDist (realPt (l.getD i (0, 0))) (realPt (l.getD (i + 1) (0, 0))) := by
  rw [sides_sum, List.length_map]
  refine Finset.sum_congr rfl fun i hi => ?_
  have hi := Finset.mem_range.1 hi
  rw [getD_of_lt (by rw [List.length_map]; omega), getD_of_lt (by rw [List.length_map]; omega), getD_of_lt (by omega),
    getD_of_lt (by omega), List.getElem_map, List.getElem_map]

/-- **C215** (outlets): a reach that ends in itself or leaves the stream is 1.5 times the mean of the measured sides long, up to a
fraction of 2^-40, for polygons of up to 257 vertices and whatever the order of summation; and positive. -/
theorem C215_outlet (hr : G.geo.rnd = rnd64) (hq : SqrtOK G.geo.sqrt) (hsd : ∀ x, G.geo.sqrt x ∈ Double)
    (h0 : G.geo.sqrt 0 = 0) (hsum : SumOK rnd64 sum)
    {n : Fin N} (hl : Fine (G.poly n)) (h2 : 2 ≤ (G.poly n).length) (h257 : (G.poly n).length ≤ 257)
    (hfar : 2 ^ (-100 : ℤ) ≤ meanReal (G.poly n)) :
    ∃ x, rlenF sum G n n = some x ∧ 0 < x ∧ |(x : ℝ) - 3 / 2 * meanReal (G.poly n)| ≤ 3 / 2 * meanReal (G.poly n) / 2 ^ 40 := by
  have hz : rnd64 0 = 0 := rnd64_nearest.exact (Float.zero_mem _ _)
  have hd0 : G.geo.dist n n = 0 := by
    unfold Geo.dist
    rw [hr, sub_self, sub_self, hz]
    norm_num
    rw [hz, add_zero, hz, h0]
  set L := sidesF rnd64 G.geo.sqrt (G.poly n) with hL
  have hlen : L.length = (G.poly n).length - 1 := sidesF_length _ _ _
  have hLne : L ≠ [] := by
    intro h; rw [h] at hlen; simp at hlen; omega
  have hout : outletF G.geo.rnd G.geo.sqrt sum (G.poly n) = some (rnd64 (sum L / L.length)) := by
    unfold outletF
    rw [hr, ← hL]
    clear_value L
    cases L with
    | nil => exact absurd rfl hLne
    | cons x l => rfl
  have hsn := sides_near hq h0 hl
  rw [← hL] at hsn
  have hLd : ∀ x ∈ L, x ∈ Double ∧ 0 ≤ x := by
    intro x hx
    constructor
    · have : ∀ l : List (ℚ × ℚ), ∀ x ∈ sidesF rnd64 G.geo.sqrt l, x ∈ Double := by
        intro l
        induction l with
        | nil => intro x hx; simp [sidesF] at hx
        | cons a l ih =>
          cases l with
          | nil => intro x hx; simp [sidesF] at hx
          | cons b l =>
            intro x hx
            rcases List.mem_cons.1 hx with rfl | hx
            · exact hsd _
            · exact ih x hx
      exact this _ x hx
    · obtain ⟨i, hi, rfl⟩ := List.mem_iff_getElem.1 hx
      obtain ⟨k1, k2⟩ := hsn.get hi (hsn.length_eq ▸ hi)
      simp only [List.get_eq_getElem] at k1 k2
      have := le_trans (mul_nonneg k1 (by norm_num)) k2.1
      exact_mod_cast this
  obtain ⟨-, s2, s3, s4⟩ := sums_within (hsum L hLne) hLd
  have w1 := near_of_within (by omega) s2 s4
  obtain ⟨w2, w3⟩ := near_sum hsn
  have w4 := (w1.trans w2 w3 (by norm_num) (by norm_num) (by norm_num)).weaken (v := 1 / 2 ^ 43) (by norm_num) w3
  rw [sides_real] at w4 w3
  set S := ∑ i ∈ Finset.range ((G.poly n).length - 1),
    planeDist (realPt ((G.poly n).getD i (0, 0))) (realPt ((G.poly n).getD (i + 1) (0, 0))) with hS
  have hM : meanReal (G.poly n) = S / (L.length : ℕ) := by rw [hlen]; rfl
  have hk : (0 : ℝ) < (L.length : ℕ) := by exact_mod_cast (by omega : 0 < L.length)
  have w5 := w4.scale (c := 1 / (L.length : ℕ)) (by positivity)
  rw [mul_one_div, mul_one_div, ← hM] at w5
  set M := meanReal (G.poly n)
  have hM0 : 0 < M := lt_of_lt_of_le (by positivity) hfar
  set q : ℚ := sum L / L.length with hqd
  have e1 : ((q : ℚ) : ℝ) = (sum L : ℝ) / (L.length : ℕ) := by rw [hqd]; push_cast; rfl
  rw [← e1] at w5
  have hq1 : (2 : ℚ) ^ (-101 : ℤ) ≤ q := by
    refine pow_of_real _ (le_trans ?_ w5.1)
    have : (2 : ℝ) ^ (-101 : ℤ) ≤ 2 ^ (-100 : ℤ) * (1 - 1 / 2 ^ 43) := by norm_num
    exact this.trans (mul_le_mul_of_nonneg_right hfar (by norm_num))
  have hq0 : 0 < q := lt_of_lt_of_le (by positivity) hq1
  have n1 := near_of_rat hq0.le (rel_err (p := 53) (emin := -1022) (by norm_num) rnd64_nearest (x := q) (by
    rw [abs_of_pos hq0]
    exact (zpow_le_zpow_right₀ (by norm_num) (by norm_num)).trans hq1))
  have n2 := n1.trans w5 hM0.le (by norm_num) (by norm_num) (by norm_num)
  have n3 := (n2.weaken (v := 1 / 2 ^ 42) (by norm_num) hM0.le).scale (c := 3 / 2) (by norm_num)
  have e2 : ((rnd64 q * (3 / 2) : ℚ) : ℝ) = (rnd64 q : ℝ) * (3 / 2) := by push_cast; ring
  rw [← e2] at n3
  have hp1 : (2 : ℚ) ^ (-102 : ℤ) ≤ rnd64 q * (3 / 2) := by
    refine pow_of_real _ (le_trans ?_ n3.1)
    have k1 : (2 : ℝ) ^ (-102 : ℤ) ≤ 2 ^ (-100 : ℤ) * (3 / 2) * (1 - 1 / 2 ^ 42) := by norm_num
    refine k1.trans (mul_le_mul_of_nonneg_right (mul_le_mul_of_nonneg_right hfar (by norm_num)) (by norm_num))
  have hp0 : 0 < rnd64 q * (3 / 2) := lt_of_lt_of_le (by positivity) hp1
  have n4 := near_of_rat hp0.le (rel_err (p := 53) (emin := -1022) (by norm_num) rnd64_nearest (x := rnd64 q * (3 / 2)) (by
    rw [abs_of_pos hp0]
    exact (zpow_le_zpow_right₀ (by norm_num) (by norm_num)).trans hp1))
  have n5 := (n4.trans n3 (by positivity) (by norm_num) (by norm_num) (by norm_num)).weaken (v := 1 / 2 ^ 40) (by norm_num)
    (by positivity)
  rw [mul_comm M] at n5
  refine ⟨rnd64 (rnd64 q * (3 / 2)), ?_, ?_, ?_⟩
  · unfold rlenF
    dsimp only
    rw [if_pos hd0, hout, hr]
    rfl
  · have := n5.pos (by norm_num) (by positivity)
    exact_mod_cast this
  · have := near_abs n5
    rw [mul_one_div] at this
    exact this

/-- the length of the reach of `n`, a real number: 1.5 times the distance to the next stream cell, or 1.5 times the mean of the
measured sides -/
noncomputable def trueLen (G : GridF N) (sa : Fin N → ℤ) (d : Fin N → Fin N) (n : Fin N) : ℝ :=
  open Classical in if sa (d n) = 0 ∨ d n = n then 3 / 2 * meanReal (G.poly n) else 3 / 2 * way G.geo (d n) n

/-- **C215**: the table `packagedata` returns after `get_stream_connectivity`.  Every stream cell has a record with a positive
length that is right up to a fraction of 2^-40; where the stream continues and the bed falls by 1e-6 or more, the gradient is
positive and length times gradient is the drop up to a fraction of 2^-45. -/
theorem C215_table {o o' : Obj N} (hd : Resolves o.fdir d) {limit : ℕ} (hsa : o.streamArray = some sa)
    {g : Dict ℤ ℤ} (hg : o.connectivity limit none = .ok (o', g))
    (hM : Machine G.geo nbr) (hsd : ∀ x, G.geo.sqrt x ∈ Double) (h0 : G.geo.sqrt 0 = 0) (hsum : SumOK rnd64 sum)
    (hnbr : ∀ n, d n ≠ n → n ∈ nbr (d n) ∧ 2 ^ (-100 : ℤ) ≤ way G.geo (d n) n)
    (hpoly : ∀ n, Fine (G.poly n) ∧ 2 ≤ (G.poly n).length ∧ (G.poly n).length ≤ 257 ∧ 2 ^ (-100 : ℤ) ≤ meanReal (G.poly n))
    (hs : slopeG G.geo G.top micro o.fdir = .ok G.slope) (htop : ∀ n v, G.top n = some v → v ∈ Double) :
    ∃ sa' recs, o'.streamArray = some sa' ∧ o'.packageDataF sum G limit none = .ok (o', recs) ∧
      recs.length = nStream sa ∧
      ∀ n, sa n ≠ 0 → ∃ i : ℕ, sa' n = (i : ℤ) + 1 ∧ ∃ rec x, recs[i]? = some rec ∧ rec.ifno = i ∧ rec.node = n ∧
        rec.rtp = G.top n ∧ rec.rlen = some x ∧ 0 < x ∧ |(x : ℝ) - trueLen G sa d n| ≤ trueLen G sa d n / 2 ^ 40 ∧
        ∀ a b, sa (d n) ≠ 0 → d n ≠ n → G.top n = some a → G.top (d n) = some b → micro ≤ a - b →
          ∃ y, rec.rgrd = some y ∧ 0 < y ∧ |(x : ℝ) * y - ((a - b : ℚ) : ℝ)| ≤ ((a - b : ℚ) : ℝ) / 2 ^ 45 := by
  obtain ⟨sa', recs, rows, h1, h2, -, h3, h4⟩ := C215_values (sum := sum) (G := G) hd hsa hg
  refine ⟨sa', recs, h1, h2, h3, fun n hn => ?_⟩
  obtain ⟨i, e1, rec, row, e2, -, e3, e4, -, e5, e6, e7⟩ := h4 n hn
  refine ⟨i, e1, rec, ?_⟩
  by_cases hout : sa (d n) = 0 ∨ d n = n
  · have e8 : rec.rlen = rlenF sum G n n := by
      rw [e7]
      split
      · rfl
      · rw [hout.resolve_left ‹_›]
    obtain ⟨p1, p2, p3, p4⟩ := hpoly n
    obtain ⟨x, k1, k2, k3⟩ := C215_outlet hM.rnd hM.sqrt hsd h0 hsum p1 p2 p3 p4
    refine ⟨x, e2, e3, e4, e5, e8.trans k1, k2, ?_, fun a b q1 q2 => absurd hout (by tauto)⟩
    unfold trueLen
    rw [if_pos hout]
    exact k3
  · push Not at hout
    rw [if_neg hout.1] at e7
    obtain ⟨l1, l2⟩ := hnbr n hout.2
    obtain ⟨x, k1, k2, k3⟩ := C215_length (sum := sum) hM l1 l2
    have hw : 0 ≤ 3 / 2 * way G.geo (d n) n := mul_nonneg (by norm_num) (Real.sqrt_nonneg _)
    refine ⟨x, e2, e3, e4, e5, e7.trans k1, k2, ?_, fun a b q1 q2 ha hb hab => ?_⟩
    · unfold trueLen
      rw [if_neg (by tauto)]
      exact k3.trans (div_le_div_of_nonneg_left hw (by norm_num) (by norm_num))
    · obtain ⟨x', y, m1, m2, m3, -, m4⟩ := C215_gradient (sum := sum) hM hout.2 l1 l2 hd rfl hs ha hb (htop _ _ ha) (htop _ _ hb) hab
      rw [k1] at m1
      cases m1
      exact ⟨y, e6.trans m2, m3, m4⟩

/-! ### five cells of 30.1 m -/

def ptX (i : ℤ) : ℚ := rnd64 (5000001 / 10 + 301 / 20 * i)
def ptY (i : ℤ) : ℚ := rnd64 (42000003 / 10 + 301 / 20 * i)

def cellAt : Fin 5 → ℤ × ℤ := ![(1, 1), (3, 1), (5, 1), (3, 3), (1, 3)]

/-- the network of C54 in doubles; polygons are closed squares -/
def gridE : GridF 5 where
  geo := ⟨fun n => ptX (cellAt n).1, fun n => ptY (cellAt n).2, sqrt64, rnd64⟩
  poly n := let c := cellAt n
    [(ptX (c.1 - 1), ptY (c.2 - 1)), (ptX (c.1 - 1), ptY (c.2 + 1)), (ptX (c.1 + 1), ptY (c.2 + 1)),
      (ptX (c.1 + 1), ptY (c.2 - 1)), (ptX (c.1 - 1), ptY (c.2 - 1))]
  slope := ![some (8618184004542901 / 288230376151711744), some (8618184004542901 / 288230376151711744), some 0,
    some (-5027274002552805 / 72057594037927936), some 0]
  top := ![some 10, some (rnd64 (9 + 1 / 10)), some (rnd64 (8 + 1 / 5)), some 7, none]

def nbrE : Fin 5 → List (Fin 5) := ![[4], [0, 3], [1], [], []]
def dE : Fin 5 → Fin 5 := ![1, 2, 2, 1, 0]

theorem tableE : ((Obj.mk exD (some exSa) none).connectivity 10 none).bind (fun x =>
    (x.1.packageDataF (sumSeq rnd64) gridE 10 none).map Prod.snd) = .ok
      [⟨0, 3, some (96958886709 / 2147483648), some (-1675758000850935 / 36028797018963968), some 7, 1⟩,
        ⟨1, 0, some (775671093657 / 17179869184), some (5745456003028601 / 288230376151711744), some 10, 1⟩,
        ⟨2, 1, some (775671093657 / 17179869184), some (5745456003028601 / 288230376151711744),
          some (5122844576133939 / 562949953421312), 3⟩,
        ⟨3, 2, some (3102684374661 / 68719476736), some 0, some (2308094809027379 / 281474976710656), 1⟩] := by
  decide +kernel

theorem slopeE : slopeG gridE.geo gridE.top micro exD = .ok gridE.slope := by
  have h : (slopeG gridE.geo gridE.top micro exD).map (fun f => [f 0, f 1, f 2, f 3, f 4]) =
      .ok [gridE.slope 0, gridE.slope 1, gridE.slope 2, gridE.slope 3, gridE.slope 4] := by decide +kernel
  obtain ⟨f, h1, h2⟩ := Res.map_eq_ok.1 h
  rw [h1]
  simp only [List.cons.injEq, and_true] at h2
  congr 1
  funext n
  fin_cases n
  exacts [h2.1, h2.2.1, h2.2.2.1, h2.2.2.2.1, h2.2.2.2.2]

theorem machineE : Machine gridE.geo nbrE :=
  ⟨rfl, Float.sqrt64_ok, fun _ => rnd64_nearest.mem _, fun _ => rnd64_nearest.mem _, by decide +kernel, by decide +kernel⟩

theorem nearE (n : Fin 5) (hne : dE n ≠ n) : n ∈ nbrE (dE n) ∧ 2 ^ (-100 : ℤ) ≤ way gridE.geo (dE n) n := by
  have hb : ∀ n : Fin 5, dE n ≠ n → n ∈ nbrE (dE n) ∧
      900 ≤ (gridE.geo.xc n - gridE.geo.xc (dE n)) ^ 2 + (gridE.geo.yc n - gridE.geo.yc (dE n)) ^ 2 := by decide +kernel
  obtain ⟨h1, h2⟩ := hb n hne
  refine ⟨h1, ?_⟩
  have h3 := (Rat.cast_le (K := ℝ)).2 h2
  have h4 : (30 : ℝ) ≤ way gridE.geo (dE n) n := Real.le_sqrt_of_sq_le (by norm_num at h3 ⊢; linarith)
  exact ((zpow_le_one_of_nonpos₀ (by norm_num) (by norm_num)).trans (by norm_num)).trans h4

theorem polyE (n : Fin 5) : Fine (gridE.poly n) ∧ 2 ≤ (gridE.poly n).length ∧ (gridE.poly n).length ≤ 257 ∧
    2 ^ (-100 : ℤ) ≤ meanReal (gridE.poly n) := by
  have hl : (gridE.poly n).length = 5 := rfl
  have hb : ∀ n : Fin 5, ∀ i : Fin 4, Sized (((gridE.poly n).getD i (0, 0)).1 - ((gridE.poly n).getD (i + 1) (0, 0)).1) ∧
      Sized (((gridE.poly n).getD i (0, 0)).2 - ((gridE.poly n).getD (i + 1) (0, 0)).2) ∧
      900 ≤ (((gridE.poly n).getD i (0, 0)).1 - ((gridE.poly n).getD (i + 1) (0, 0)).1) ^ 2 +
        (((gridE.poly n).getD i (0, 0)).2 - ((gridE.poly n).getD (i + 1) (0, 0)).2) ^ 2 := by decide +kernel
  refine ⟨⟨?_, ?_⟩, by rw [hl]; norm_num, by rw [hl]; norm_num, ?_⟩
  · intro p hp
    simp only [gridE, List.mem_cons, List.not_mem_nil, or_false] at hp
    rcases hp with rfl | rfl | rfl | rfl | rfl <;> exact ⟨rnd64_nearest.mem _, rnd64_nearest.mem _⟩
  · intro i hi
    have := hb n ⟨i, by omega⟩
    simp only [getD_of_lt hi, getD_of_lt (show i < (gridE.poly n).length by omega)] at this
    exact ⟨this.1, this.2.1⟩
  · have h30 : (30 : ℝ) ≤ meanReal (gridE.poly n) := by
      unfold meanReal
      rw [hl, le_div_iff₀ (by norm_num)]
      have : ∀ i ∈ Finset.range 4, (30 : ℝ) ≤
          planeDist (realPt ((gridE.poly n).getD i (0, 0))) (realPt ((gridE.poly n).getD (i + 1) (0, 0))) := by
        intro i hi
        have h3 := (Rat.cast_le (K := ℝ)).2 (hb n ⟨i, Finset.mem_range.1 hi⟩).2.2
        refine Real.le_sqrt_of_sq_le ?_
        unfold realPt
        push_cast at h3
        norm_num at h3 ⊢
        linarith
      have h := Finset.card_nsmul_le_sum _ _ _ this
      rw [Finset.card_range, nsmul_eq_mul] at h
      refine le_trans (le_of_eq ?_) h
      norm_num
    exact ((zpow_le_one_of_nonpos₀ (by norm_num) (by norm_num)).trans (by norm_num)).trans h30

-- the theorem at work on this network: reach of cell 0
example : ∃ o' recs, (Obj.mk exD (some exSa) none).connectivity 10 none = .ok (o', [(1, 3), (2, 3), (3, 4), (4, 4)]) ∧
    o'.packageDataF (sumSeq rnd64) gridE 10 none = .ok (o', recs) ∧
      ∃ rec x y, rec ∈ recs ∧ rec.node = 0 ∧ rec.rlen = some x ∧ rec.rgrd = some y ∧ 0 < x ∧ 0 < y ∧
        |(x : ℝ) - 3 / 2 * way gridE.geo 1 0| ≤ 3 / 2 * way gridE.geo 1 0 / 2 ^ 40 ∧
        |(x : ℝ) * y - ((10 - rnd64 (9 + 1 / 10) : ℚ) : ℝ)| ≤ ((10 - rnd64 (9 + 1 / 10) : ℚ) : ℝ) / 2 ^ 45 := by
  have hg : ((Obj.mk exD (some exSa) none).connectivity 10 none).map Prod.snd = .ok [(1, 3), (2, 3), (3, 4), (4, 4)] := by
    decide +kernel
  obtain ⟨⟨o', g⟩, h1, rfl⟩ := Res.map_eq_ok.1 hg
  have htop : ∀ n v, gridE.top n = some v → v ∈ Double := by
    have h : ∀ n v, gridE.top n = some v → rnd64 v = v := by
      intro n v hv
      have hb : ∀ n : Fin 5, (gridE.top n).map rnd64 = gridE.top n := by decide +kernel
      have := hb n
      rw [hv] at this
      exact Option.some.inj this
    intro n v hv
    rw [← h n v hv]
    exact rnd64_nearest.mem _
  obtain ⟨sa', recs, -, k2, -, k4⟩ := C215_table (d := dE) (sa := exSa) (nbr := nbrE) (G := gridE) (sum := sumSeq rnd64)
    (by intro n; revert n; decide +kernel) rfl h1 machineE (fun _ => rnd64_nearest.mem _) (by decide +kernel) (Float.sumSeq_ok _)
    nearE polyE slopeE htop
  obtain ⟨i, -, rec, x, m1, -, m2, -, m3, m4, m5, m6⟩ := k4 0 (by decide)
  obtain ⟨y, q1, q2, q3⟩ := m6 _ _ (by decide) (by decide) rfl rfl (by decide +kernel)
  refine ⟨o', recs, h1, k2, rec, x, y, List.mem_of_getElem? m1, m2, m3, q1, m4, q2, ?_, q3⟩
  unfold trueLen at m5
  rw [if_neg (by decide)] at m5
  exact m5

end Dany.Reach
