import Verif.Float.Acc
import Verif.Delin.Control

/-!
# Control points in `float64` (C199)

`threshold_from_control_points` (stream_util.py:381-455) on accumulated areas in `float64`: the difference
`self._facc[node] - 5` is rounded when it is computed.
-/

namespace Dany.Float

open Function Flow Acc Delin

variable {N : ℕ}

/-- `array[node] = self._facc[node] - 5` (stream_util.py:440) in `float64`: the difference is rounded to the
nearest number; an integer array (the default) then drops the fraction.  Integers beyond the range of `int64`
are not modelled. -/
def entryF (isInt : Bool) (v : Option double.Num) : Res (Option ℚ) :=
  if isInt = true then
    match v with
    | none => .err .valueError
    | some x => .ok (some (trunc (double.store (x.val - 5)).val))
  else .ok (v.map fun x => (double.store (x.val - 5)).val)

/-- the values of an array -/
def vals (facc : Fin N → Option double.Num) (n : Fin N) : Option ℚ := (facc n).map Subtype.val

/-- the `while stack` loop from one point (stream_util.py:435-453) -/
def chainLoopF (nbs : Fin N → List (Fin N)) (fdir : Fin N → ℤ) (facc : Fin N → Option double.Num)
    (isInt : Bool) : ℕ → Fin N → (Fin N → Option ℚ) → Res (Fin N → Option ℚ)
  | 0, _, _ => .hang
  | k + 1, node, arr =>
    (entryF isInt (facc node)).bind fun v =>
      match argmax (flowsIn nbs fdir (vals facc) node) with
      | none => .ok (update arr node v)
      | some m => chainLoopF nbs fdir facc isInt k m.1 (update arr node v)

/-- one iteration of `for node in cellids` (stream_util.py:434-453) -/
def pointStepF (nbs : Fin N → List (Fin N)) (fdir : Fin N → ℤ) (facc : Fin N → Option double.Num)
    (isInt : Bool) (fuel : ℕ) (r : Res (Fin N → Option ℚ)) (node : Fin N) : Res (Fin N → Option ℚ) :=
  r.bind fun arr => chainLoopF nbs fdir facc isInt fuel node arr

/-- `threshold_from_control_points` (stream_util.py:381-455) in `float64`, from the cells of the points on -/
def fromControlPointsF (nbs : Fin N → List (Fin N)) (fdir : Fin N → ℤ) (facc : Fin N → Option double.Num)
    (isInt : Bool) (fuel : ℕ) (threshold : ℚ) (cells : List (Fin N)) : Res (Fin N → Option ℚ) :=
  cells.foldl (pointStepF nbs fdir facc isInt fuel) (.ok fun _ => some threshold)

/-! ### the same cells as with exact differences -/

/-- an entry of the array, exact and rounded -/
private def Like (facc : Fin N → Option double.Num) (arr arrF : Fin N → Option ℚ) : Prop :=
  ∀ n, arrF n = arr n ∨ ((facc n = none ∧ arrF n = none ∧ arr n = none) ∨
    ∃ a t t', facc n = some a ∧ arr n = some t ∧ arrF n = some t' ∧ t ≤ a.val ∧ t' ≤ a.val)

private def LikeRes (facc : Fin N → Option double.Num) : Res (Fin N → Option ℚ) → Res (Fin N → Option ℚ) → Prop
  | .ok a, .ok b => Like facc a b
  | .err a, .err b => a = b
  | .hang, .hang => True
  | _, _ => False

private theorem like_update {facc : Fin N → Option double.Num} {arr arrF : Fin N → Option ℚ}
    (h : Like facc arr arrF) (node : Fin N) {v w : Option ℚ}
    (hv : (facc node = none ∧ w = none ∧ v = none) ∨
      ∃ a t t', facc node = some a ∧ v = some t ∧ w = some t' ∧ t ≤ a.val ∧ t' ≤ a.val) :
    Like facc (update arr node v) (update arrF node w) := by
  intro n
  by_cases e : n = node
  · subst e
    rw [update_self, update_self]
    exact .inr hv
  · rw [update_of_ne e, update_of_ne e]
    exact h n

theorem store_sub_le (x : double.Num) : (double.store (x.val - 5)).val ≤ x.val := by
  have h := double.nearest.mono (show x.val - 5 ≤ x.val by linarith)
  have e : rnd double.p double.emin x.val = x.val := double.nearest.exact x.2
  rw [e] at h
  exact h

theorem trunc_store_le {x : double.Num} (h0 : 0 ≤ x.val) : trunc (double.store (x.val - 5)).val ≤ x.val := by
  unfold trunc
  split
  · exact (Int.floor_le _).trans (store_sub_le x)
  · rename_i h
    have : ⌈(double.store (x.val - 5)).val⌉ ≤ 0 := Int.ceil_le.2 (by simpa using (not_le.1 h).le)
    have h' : ((⌈(double.store (x.val - 5)).val⌉ : ℤ) : ℚ) ≤ 0 := by exact_mod_cast this
    exact h'.trans h0

private theorem loop_like {nbs : Fin N → List (Fin N)} {fdir : Fin N → ℤ} {facc : Fin N → Option double.Num}
    (hpos : ∀ n a, facc n = some a → 0 ≤ a.val) (isInt : Bool) : ∀ (k : ℕ) (node : Fin N)
    (arr arrF : Fin N → Option ℚ), Like facc arr arrF →
    LikeRes facc (chainLoop nbs fdir (vals facc) isInt k node arr) (chainLoopF nbs fdir facc isInt k node arrF)
  | 0, _, _, _, _ => trivial
  | k + 1, node, arr, arrF, h => by
    unfold chainLoop chainLoopF
    cases hf : facc node with
    | none =>
      have hv : vals facc node = none := by rw [vals, hf]; rfl
      rw [hv]
      cases isInt with
      | true => exact rfl
      | false =>
        have hu := like_update h node (v := none) (w := none) (.inl ⟨hf, rfl, rfl⟩)
        have e1 : entry (K := ℚ) false none = .ok none := rfl
        have e2 : entryF false none = .ok none := rfl
        rw [e1, e2, Res.bind_ok, Res.bind_ok]
        cases argmax (flowsIn nbs fdir (vals facc) node) with
        | none => exact hu
        | some m => exact loop_like hpos false k m.1 _ _ hu
    | some a =>
      have hv : vals facc node = some a.val := by rw [vals, hf]; rfl
      rw [hv]
      have h0 := hpos node a hf
      have hu : ∃ v w, entry isInt (some a.val) = .ok v ∧ entryF isInt (some a) = .ok w ∧
          Like facc (update arr node v) (update arrF node w) := by
        cases isInt with
        | true =>
          exact ⟨_, _, rfl, rfl, like_update h node (.inr ⟨a, _, _, hf, rfl, rfl, trunc_le _, trunc_store_le h0⟩)⟩
        | false =>
          exact ⟨_, _, rfl, rfl, like_update h node
            (.inr ⟨a, _, _, hf, rfl, rfl, by linarith, store_sub_le a⟩)⟩
      obtain ⟨v, w, e1, e2, hu⟩ := hu
      rw [e1, e2, Res.bind_ok, Res.bind_ok]
      cases argmax (flowsIn nbs fdir (vals facc) node) with
      | none => exact hu
      | some m => exact loop_like hpos isInt k m.1 _ _ hu

private theorem points_like {nbs : Fin N → List (Fin N)} {fdir : Fin N → ℤ}
    {facc : Fin N → Option double.Num} (hpos : ∀ n a, facc n = some a → 0 ≤ a.val) (isInt : Bool) (fuel : ℕ) :
    ∀ (cells : List (Fin N)) (r rF : Res (Fin N → Option ℚ)), LikeRes facc r rF →
    LikeRes facc (cells.foldl (pointStep nbs fdir (vals facc) isInt fuel) r)
      (cells.foldl (pointStepF nbs fdir facc isInt fuel) rF)
  | [], _, _, h => h
  | c :: cells, r, rF, h => by
    rw [List.foldl_cons, List.foldl_cons]
    refine points_like hpos isInt fuel cells _ _ ?_
    match r, rF, h with
    | .ok a, .ok b, h => exact loop_like hpos isInt fuel c a b h
    | .err a, .err b, h => exact h
    | .hang, .hang, _ => trivial

/-- **C199.**  Rounding the differences `accumulated area - 5` does not change the network: called with the
same accumulated areas, `threshold_from_control_points` in double precision ends (fails, runs on) exactly if it
does with exact differences, and `delineate_streams` finds the same stream cells with either array. -/
theorem C199_same {nbs : Fin N → List (Fin N)} {o : Reach.Obj N} {facc : Fin N → Option double.Num}
    (hpos : ∀ n a, facc n = some a → 0 ≤ a.val) (isInt : Bool) (fuel : ℕ) (threshold : ℚ)
    (cells : List (Fin N)) (boundary : Option (List ℤ)) :
    ((fromControlPointsF nbs o.fdir facc isInt fuel threshold cells).bind fun t =>
      delineate (vals facc) o (.array (List.ofFn t)) boundary) =
    ((fromControlPoints nbs o.fdir (vals facc) isInt fuel threshold cells).bind fun t =>
      delineate (vals facc) o (.array (List.ofFn t)) boundary) := by
  have h := points_like (nbs := nbs) (fdir := o.fdir) hpos isInt fuel cells (.ok fun _ => some threshold)
    (.ok fun _ => some threshold) (fun n => .inl rfl)
  unfold fromControlPointsF fromControlPoints
  revert h
  generalize cells.foldl (pointStep nbs o.fdir (vals facc) isInt fuel) (.ok fun _ => some threshold) = r
  generalize cells.foldl (pointStepF nbs o.fdir facc isInt fuel) (.ok fun _ => some threshold) = rF
  intro h
  match r, rF, h with
  | .ok a, .ok b, h =>
    have e : (fun n => if geq (vals facc n) (b n) = true then (1 : ℤ) else 0) =
        fun n => if geq (vals facc n) (a n) = true then (1 : ℤ) else 0 := by
      funext n
      rcases h n with h | ⟨h1, h2, h3⟩ | ⟨x, t, t', h1, h2, h3, h4, h5⟩
      · rw [h]
      · rw [h2, h3]
      · rw [h2, h3, vals, h1]
        simp [geq, h4, h5]
    simp only [Res.bind_ok, delineate, thresholds, toFun_some (show (List.ofFn b).length = N by simp),
      toFun_some (show (List.ofFn a).length = N by simp), List.getElem_ofFn, Fin.eta, e]
  | .err a, .err b, h => cases h; rfl
  | .hang, .hang, _ => rfl

/-- accumulated areas are not negative -/
theorem acc_nonneg {fdir : Fin N → ℤ} {d : Fin N → Fin N} {area : Fin N → double.Num} {fuel : ℕ}
    {out : Fin N → double.Num} (hd : Resolves fdir d) (hpos : ∀ u, 0 ≤ (area u).val) {asCells : Bool}
    (ho : flowAccumulation fuel fdir area asCells = .ok out) (n : Fin N) (hn : ¬ OnCycle d n) :
    0 ≤ (out n).val := by
  obtain ⟨R, ls, hF⟩ := final_of_ok' add_zero' hd ho
  obtain ⟨sa, ha, _⟩ := exact_val hd hF (fun _ => (1 : ℕ))
  have hw : ∀ m, 0 ≤ ((if asCells then 1 else area m : double.Num)).val := by
    intro m
    split
    · rw [one_val]; norm_num
    · exact hpos m
  exact rel_ind hF (fun (_ _ : ℕ) (x : double.Num) => 0 ≤ x.val) hw
    (fun _ _ x _ _ y h1 h2 => h1.trans (le_add_left' h2)) ha ha n hn

/-- **C199.**  Where a network delineated through control points is broken, in double precision (as
`Delin.C154_breaks_partial`, with the accumulation, too, in double precision): exactly where a control point
drains to a cell on no stem that has accumulated less than `threshold`. -/
theorem C199_breaks {nbs : Fin N → List (Fin N)} (hirr : ∀ n, n ∉ nbs n) {o : Reach.Obj N}
    {d : Fin N → Fin N} (hd : Legal o.fdir d) (hac : ∀ n, ¬ OnCycle d n) {area : Fin N → double.Num}
    (hpos : ∀ u, 0 ≤ (area u).val) {asCells : Bool} {afuel : ℕ} {facc : Fin N → double.Num}
    (ho : flowAccumulation afuel o.fdir area asCells = .ok facc) {isInt : Bool} {fuel : ℕ} (hf : N < fuel)
    (threshold : ℚ) (cells : List (Fin N)) :
    ∃ (stems : List (List (Fin N))) (arr : Fin N → Option ℚ) (sa : Fin N → ℤ),
      fromControlPointsF nbs o.fdir (fun n => some (facc n)) isInt fuel threshold cells = .ok arr ∧
      List.Forall₂ (MainStem nbs o.fdir fun n => some (facc n).val) cells stems ∧
      delineate (fun n => some (facc n).val) o (.array (List.ofFn arr)) none = .ok (o.setStream sa, sa) ∧
      (∀ n, sa n = 1 ↔ (∃ c ∈ stems, n ∈ c) ∨ threshold ≤ (facc n).val) ∧
      ∀ n, (sa n = 1 ∧ sa (d n) ≠ 1) ↔
        (n ∈ cells ∧ (facc (d n)).val < threshold ∧ ∀ c ∈ stems, d n ∉ c) := by
  have hres : Resolves o.fdir d := fun n => .inl ⟨by rw [hd n]; omega, (hd n).symm⟩
  obtain ⟨stems, arr, sa, h1, h2, h3, h4, h5⟩ := breaks_of_grow (nbs := nbs) hirr hd hac
    (facc := fun n => (facc n).val) (fun u => (C114_grows_downstream hres hpos ho u (hac u)).1)
    (isInt := isInt) hf threshold cells
  have e := C199_same (nbs := nbs) (o := o) (facc := fun n => some (facc n))
    (fun n a h => by cases h; exact acc_nonneg hres hpos ho n (hac n)) isInt fuel threshold cells none
  have ev : vals (fun n => some (facc n)) = fun n => some (facc n).val := rfl
  rw [ev, h1, Res.bind_ok, h3] at e
  obtain ⟨arrF, e1, e2⟩ := Res.bind_eq_ok.1 e
  exact ⟨stems, arrF, sa, e1, h2, e2, h4, h5⟩

/-- **C199.**  So in double precision, too, the network is continuous down to the outlets if every control
point drains to a cell that has accumulated the threshold. -/
theorem C199_continuous {nbs : Fin N → List (Fin N)} (hirr : ∀ n, n ∉ nbs n) {o : Reach.Obj N}
    {d : Fin N → Fin N} (hd : Legal o.fdir d) (hac : ∀ n, ¬ OnCycle d n) {area : Fin N → double.Num}
    (hpos : ∀ u, 0 ≤ (area u).val) {asCells : Bool} {afuel : ℕ} {facc : Fin N → double.Num}
    (ho : flowAccumulation afuel o.fdir area asCells = .ok facc) {isInt : Bool} {fuel : ℕ} (hf : N < fuel)
    (threshold : ℚ) (cells : List (Fin N)) (hp : ∀ p ∈ cells, threshold ≤ (facc (d p)).val) :
    ∃ (arr : Fin N → Option ℚ) (sa : Fin N → ℤ),
      fromControlPointsF nbs o.fdir (fun n => some (facc n)) isInt fuel threshold cells = .ok arr ∧
      delineate (fun n => some (facc n).val) o (.array (List.ofFn arr)) none = .ok (o.setStream sa, sa) ∧
      (∀ p ∈ cells, sa p = 1) ∧ ∀ n m, sa n = 1 → Reaches d n m → sa m = 1 := by
  obtain ⟨stems, arr, sa, h1, h2, h3, h4, h5⟩ := C199_breaks (nbs := nbs) hirr hd hac hpos ho
    (isInt := isInt) hf threshold cells
  refine ⟨arr, sa, h1, h3, fun p hpc => ?_, ?_⟩
  · obtain ⟨c, hc, hms⟩ := forall₂_mem_left h2 hpc
    exact (h4 p).2 (.inl ⟨c, hc, C68_contains hms⟩)
  · rintro n m hn ⟨k, rfl⟩
    induction k with
    | zero => exact hn
    | succ k ih =>
      rw [Function.iterate_succ_apply']
      by_contra hne
      obtain ⟨hc, hlt, _⟩ := (h5 _).1 ⟨ih, hne⟩
      exact absurd (hp _ hc) (not_le.2 hlt)

/-! ### a case: 3 → 2 → 1 → 0 with 4 → 1, areas a tenthC, in `float64` -/

/-- 0.1 in `float64` -/
def tenthC : double.Num := double.store (1 / 10)

/-- what `flow_accumulation` finds: 0.1 + 0.1 + … with its rounding -/
def accC : Fin 5 → double.Num :=
  ![tenthC + ((tenthC + (tenthC + tenthC)) + tenthC), (tenthC + (tenthC + tenthC)) + tenthC, tenthC + tenthC, tenthC, tenthC]

example : ∃ f, flowAccumulation 9 ![0, 0, 1, 2, 1] (fun _ : Fin 5 => tenthC) false = .ok f ∧
    (∀ n, ¬ OnCycle (N := 5) ![0, 0, 1, 2, 1] n) ∧ Legal (N := 5) ![0, 0, 1, 2, 1] ![0, 0, 1, 2, 1] ∧
    (∀ n, n ∉ exNbs n) ∧ 0 ≤ tenthC.val ∧ (3 / 10 : ℚ) ≤ (f 1).val ∧ (f 2).val < 3 / 10 := by
  refine ⟨_, rfl, ex_acyclic, ex_legal, by decide, by decide +kernel, by decide +kernel, by decide +kernel⟩

/-- the rounded differences are not the exact ones -/
example : (double.store (tenthC.val - 5)).val ≠ tenthC.val - 5 := by decide +kernel

example : ((fromControlPointsF exNbs ![0, 0, 1, 2, 1] (fun n => some (accC n)) false 6 (3 / 10) [2]).bind fun t =>
    (delineate (fun n => some (accC n).val) ⟨![0, 0, 1, 2, 1], none, none⟩ (.array (List.ofFn t)) none).map
      fun r => List.ofFn r.2) = .ok [1, 1, 1, 1, 0] := by decide +kernel

end Dany.Float
