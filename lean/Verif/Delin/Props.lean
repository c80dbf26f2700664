import Verif.Delin.Lemmas
import Verif.Acc.Props
import Mathlib.Data.Rat.Floor
import Mathlib.Data.Fin.VecNotation

/-!
# Properties C44, C45, C68: delineation, continuity of streams, control points
-/

namespace Dany.Delin

open Function Relation Reach

variable {N : ℕ} {K : Type*}

/-! ### C44 -/

section Thresholding

variable [LinearOrder K] {facc : Fin N → Option K} {o : Obj N}

/-- **C44.** With a number as threshold and no boundary, `delineate_streams` returns and stores the array
that is 1 exactly where the accumulation is a number not below the threshold, 0 elsewhere. -/
theorem C44_number (c : K) : ∃ sa, delineate facc o (.number c) none = .ok (o.setStream sa, sa) ∧
    ∀ n, (sa n = 1 ∨ sa n = 0) ∧ (sa n = 1 ↔ ∃ a, facc n = some a ∧ c ≤ a) := by
  refine ⟨_, rfl, fun n => ?_⟩
  unfold geq
  cases facc n with
  | none => simp
  | some a => by_cases h : c ≤ a <;> simp [h]

/-- **C44.** With an array of thresholds and a boundary of the right sizes: 1 exactly where the
accumulation reaches the cell's own threshold and the boundary is not 0. -/
theorem C44_arrays {t : List (Option K)} {b : List ℤ} (ht : t.length = N) (hb : b.length = N) :
    ∃ sa, delineate facc o (.array t) (some b) = .ok (o.setStream sa, sa) ∧
      ∀ n : Fin N, (sa n = 1 ∨ sa n = 0) ∧
        (sa n = 1 ↔ (∃ a c, facc n = some a ∧ t[n.val]? = some (some c) ∧ c ≤ a) ∧
          ∃ v, b[n.val]? = some v ∧ v ≠ 0) := by
  refine ⟨_, by simp only [delineate, thresholds, toFun_some ht, Res.bind_ok, cut, toFun_some hb,
    Res.map_ok]; rfl, fun n => ?_⟩
  have hnt : n.val < t.length := by rw [ht]; exact n.isLt
  have hnb : n.val < b.length := by rw [hb]; exact n.isLt
  rw [List.getElem?_eq_getElem hnt, List.getElem?_eq_getElem hnb]
  by_cases h0 : b[n.val] = 0
  · simp [h0]
  · rcases hfa : facc n with _ | a
    · simp [h0, geq]
    · obtain ⟨x, hx⟩ : ∃ x, t[n.val] = x := ⟨_, rfl⟩
      rcases x with _ | c
      · simp [h0, geq, hx]
      · by_cases h : c ≤ a <;> simp [h, h0, geq, hx]

/-- **C44.** All combinations: the threshold a number or an array of the grid's size, with or without a boundary of the
grid's size.  The array returned and stored is 1 exactly where the accumulation reaches the cell's threshold and the
boundary, if there is one, is not 0. -/
theorem C44_exact {c : Contrib K} {b : Option (List ℤ)} (ht : ∀ t, c = .array t → t.length = N)
    (hb : ∀ l, b = some l → l.length = N) : ∃ sa, delineate facc o c b = .ok (o.setStream sa, sa) ∧
      ∀ n : Fin N, (sa n = 1 ∨ sa n = 0) ∧
        (sa n = 1 ↔ (∃ a t, facc n = some a ∧ (c = .number t ∨ ∃ l, c = .array l ∧ l[n.val]? = some (some t)) ∧ t ≤ a) ∧
          ∀ l, b = some l → ∃ v, l[n.val]? = some v ∧ v ≠ 0) := by
  obtain ⟨T, hT, hTn⟩ : ∃ T, thresholds N c = .ok T ∧
      ∀ n t, T n = some t ↔ (c = .number t ∨ ∃ l, c = .array l ∧ l[n.val]? = some (some t)) := by
    cases c with
    | number c => exact ⟨_, rfl, fun n t => by simp⟩
    | array l =>
      have h := ht l rfl
      refine ⟨_, by simp only [thresholds, toFun_some h]; rfl, fun n t => ?_⟩
      have hn : n.val < l.length := by rw [h]; exact n.isLt
      simp [List.getElem?_eq_getElem hn]
  have hg : ∀ n, geq (facc n) (T n) = true ↔ ∃ a t, facc n = some a ∧ T n = some t ∧ t ≤ a := by
    intro n
    cases facc n <;> cases T n <;> simp [geq]
  cases b with
  | none =>
    refine ⟨_, by simp only [delineate, hT, Res.bind_ok, cut]; rfl, fun n => ⟨?_, ?_⟩⟩
    · by_cases h : geq (facc n) (T n) = true <;> simp [h]
    · by_cases h : geq (facc n) (T n) = true
      · have := (hg n).1 h
        simp only [hTn] at this
        simp only [h, this]
        simp
      · have := mt (hg n).2 h
        simp only [hTn] at this
        simp only [h, this]
        simp
  | some l =>
    have hl := hb l rfl
    have hn : ∀ n : Fin N, n.val < l.length := fun n => by rw [hl]; exact n.isLt
    refine ⟨_, by simp only [delineate, hT, Res.bind_ok, cut, toFun_some hl, Res.map_ok]; rfl, fun n => ⟨?_, ?_⟩⟩
    · by_cases h0 : l[n.val] = 0
      · simp [h0]
      · by_cases h : geq (facc n) (T n) = true <;> simp [h, h0]
    · by_cases h0 : l[n.val] = 0
      · simp [h0, List.getElem?_eq_getElem (hn n)]
      · by_cases h : geq (facc n) (T n) = true
        · have := (hg n).1 h
          simp only [hTn] at this
          simp only [h, h0, this]
          simp [h0, List.getElem?_eq_getElem (hn n)]
        · have := mt (hg n).2 h
          simp only [hTn] at this
          simp only [h, h0, this]
          simp

/-- **C44.** A threshold array of the wrong size is rejected, whatever else is given; a boundary of the
wrong size is rejected too; `set_stream_array` accepts exactly arrays of the grid's size. -/
theorem C44_sizes (t : List (Option K)) (b : Option (List ℤ)) (c : Contrib K) (sb : List ℤ)
    (l : List ℤ) :
    (t.length ≠ N → delineate facc o (.array t) b = .err .assertionError) ∧
    (sb.length ≠ N → ∃ e, delineate facc o c (some sb) = .err e) ∧
    (l.length ≠ N → setStreamArray o l = .err .valueError) ∧
    (l.length = N → ∃ sa, setStreamArray o l = .ok (o.setStream sa) ∧ List.ofFn sa = l) := by
  refine ⟨?_, ?_, ?_, ?_⟩
  · intro h
    simp [delineate, thresholds, toFun_none h]
  · intro h
    cases c with
    | number c => exact ⟨_, by simp only [delineate, thresholds, Res.bind_ok, cut, toFun_none h]; rfl⟩
    | array t =>
      by_cases ht : t.length = N
      · exact ⟨_, by simp only [delineate, thresholds, toFun_some ht, Res.bind_ok, cut, toFun_none h]; rfl⟩
      · exact ⟨_, by simp only [delineate, thresholds, toFun_none ht]; rfl⟩
  · intro h
    simp [setStreamArray, toFun_none h]
  · intro h
    refine ⟨_, by simp only [setStreamArray, toFun_some h]; rfl, ?_⟩
    subst h
    exact List.ofFn_getElem

/-- **C44.** Raising the threshold never adds stream cells. -/
theorem C44_monotone {c c' : K} (hc : c ≤ c') {b : Option (List ℤ)} {o1 o2 : Obj N}
    {sa sa' : Fin N → ℤ} (h : delineate facc o (.number c) b = .ok (o1, sa))
    (h' : delineate facc o (.number c') b = .ok (o2, sa')) (n : Fin N) (hn : sa' n = 1) : sa n = 1 := by
  have key : ∀ n, geq (facc n) (some c') = true → geq (facc n) (some c) = true := by
    intro n
    unfold geq
    cases facc n with
    | none => simp
    | some a =>
      simp only [decide_eq_true_eq]
      exact fun h => hc.trans h
  unfold delineate thresholds at h h'
  simp only [Res.bind_ok] at h h'
  obtain ⟨s, hs, he⟩ := Res.map_eq_ok.1 h
  obtain ⟨s', hs', he'⟩ := Res.map_eq_ok.1 h'
  cases he
  cases he'
  unfold cut at hs hs'
  cases b with
  | none =>
    cases hs
    cases hs'
    dsimp only at hn ⊢
    by_cases hg : geq (facc n) (some c') = true
    · rw [if_pos (key n hg)]
    · rw [if_neg hg] at hn; cases hn
  | some l =>
    dsimp only at hs hs'
    cases hl : toFun N l with
    | none => rw [hl] at hs; cases hs
    | some m =>
      rw [hl] at hs hs'
      cases hs
      cases hs'
      dsimp only at hn ⊢
      by_cases hm : m n = 0
      · rw [if_pos hm] at hn; cases hn
      · rw [if_neg hm] at hn ⊢
        by_cases hg : geq (facc n) (some c') = true
        · rw [if_pos (key n hg)]
        · rw [if_neg hg] at hn; cases hn

end Thresholding

/-- non-vacuity -/
example : (delineate (N := 4) (K := ℚ) ![some 1, none, some 7, some 3] ⟨![1, 2, 2, 2], none, none⟩
    (.array [some 1, some 0, some 7, some 4]) (some [1, 1, 2, 1])).map (fun r => List.ofFn r.2) =
    .ok [1, 0, 1, 0] := by decide +kernel

/-- a number with a boundary, an array without -/
example : (delineate (N := 4) (K := ℚ) ![some 1, none, some 7, some 3] ⟨![1, 2, 2, 2], none, none⟩
    (.number 3) (some [1, 1, 2, 0])).map (fun r => List.ofFn r.2) = .ok [0, 0, 1, 0] ∧
  (delineate (N := 4) (K := ℚ) ![some 1, none, some 7, some 3] ⟨![1, 2, 2, 2], none, none⟩
    (.array [some 1, some 0, some 7, none]) none).map (fun r => List.ofFn r.2) = .ok [1, 0, 1, 0] := by decide +kernel

/-! ### C45 -/

section Continuous

open Flow _root_.Dany.Acc

/-- **C45.** With a number as threshold, no boundary, and accumulated areas from `flow_accumulation`
(non-negative cell areas): the cell a stream cell off the flow cycles flows to is a stream cell. -/
theorem C45_areas [Field K] [LinearOrder K] [IsStrictOrderedRing K] {o : Obj N} {d : Fin N → Fin N}
    (hd : Resolves o.fdir d) {area : Fin N → K} (hpos : ∀ u, 0 ≤ area u) {fuel : ℕ} {facc : Fin N → K}
    (ho : flowAccumulation fuel o.fdir area false = .ok facc) {c : K} {o' : Obj N} {sa : Fin N → ℤ}
    (h : delineate (fun n => some (facc n)) o (.number c) none = .ok (o', sa)) (n : Fin N)
    (hn : ¬ OnCycle d n) (hs : sa n = 1) : sa (d n) = 1 := by
  obtain ⟨sa', e, hsa⟩ := C44_number (facc := fun n => some (facc n)) (o := o) c
  rw [h] at e
  cases e
  by_cases hself : d n = n
  · rw [hself]; exact hs
  · obtain ⟨a, ha, hle⟩ := (hsa n).2.1 hs
    cases ha
    have := C34_grows_downstream hd hpos ho n hn hself
    refine (hsa (d n)).2.2 ⟨_, rfl, ?_⟩
    have := hpos (d n)
    linarith

/-- **C45**, the same for accumulated cell counts -/
theorem C45_counts {o : Obj N} {d : Fin N → Fin N} (hd : Resolves o.fdir d) {area : Fin N → ℚ}
    {fuel : ℕ} {facc : Fin N → ℚ} (ho : flowAccumulation fuel o.fdir area true = .ok facc) {c : ℚ}
    {o' : Obj N} {sa : Fin N → ℤ}
    (h : delineate (fun n => some (facc n)) o (.number c) none = .ok (o', sa)) (n : Fin N)
    (hn : ¬ OnCycle d n) (hs : sa n = 1) : sa (d n) = 1 := by
  obtain ⟨sa', e, hsa⟩ := C44_number (facc := fun n => some (facc n)) (o := o) c
  rw [h] at e
  cases e
  by_cases hself : d n = n
  · rw [hself]; exact hs
  · obtain ⟨a, ha, hle⟩ := (hsa n).2.1 hs
    cases ha
    have := C34_counts_grow hd ho n hn hself
    refine (hsa (d n)).2.2 ⟨_, rfl, ?_⟩
    linarith

/-- **C45.** Hence a stream never breaks before its outlet: without flow cycles every cell on the flow
path of a stream cell is a stream cell. -/
theorem C45_to_outlet [Field K] [LinearOrder K] [IsStrictOrderedRing K] {o : Obj N} {d : Fin N → Fin N}
    (hd : Resolves o.fdir d) {area : Fin N → K} (hpos : ∀ u, 0 ≤ area u) {fuel : ℕ} {facc : Fin N → K}
    (ho : flowAccumulation fuel o.fdir area false = .ok facc) {c : K} {o' : Obj N} {sa : Fin N → ℤ}
    (h : delineate (fun n => some (facc n)) o (.number c) none = .ok (o', sa))
    (hac : ∀ n, ¬ OnCycle d n) {n m : Fin N} (hs : sa n = 1) (hr : Reaches d n m) : sa m = 1 := by
  obtain ⟨k, rfl⟩ := hr
  induction k with
  | zero => exact hs
  | succ k ih =>
    rw [Function.iterate_succ_apply']
    exact C45_areas hd hpos ho h _ (hac _) ih

/-- non-vacuity: 0 → 1 → 2 → 2, 3 → 1 with unit areas and threshold 2 -/
example : ((flowAccumulation 9 ![1, 2, 2, 1] (fun _ : Fin 4 => (1 : ℚ)) false).bind fun f =>
    (delineate (fun n => some (f n)) ⟨![1, 2, 2, 1], none, none⟩ (.number 2) none).map
      fun r => List.ofFn r.2) = .ok [0, 1, 1, 0] := by decide +kernel

end Continuous

/-! ### C68 -/

section Control

variable [Field K] [LinearOrder K] [IsStrictOrderedRing K] [FloorRing K]
variable {nbs : Fin N → List (Fin N)} {fdir : Fin N → ℤ} {facc : Fin N → Option K}

theorem trunc_le (a : K) : trunc (a - 5) ≤ a := by
  unfold trunc
  split
  · exact (Int.floor_le _).trans (by linarith)
  · have := Int.ceil_lt_add_one (a - 5)
    linarith

theorem lowered_le (isInt : Bool) (a : K) : lowered isInt a ≤ a := by
  unfold lowered
  split
  · exact trunc_le a
  · linarith

/-- **C68.** If no control point lies on a flow loop, `threshold_from_control_points` terminates.  There
is, for every control point, a main stem: a chain upstream along tributaries of largest accumulation, up
to a cell without tributaries.  On the stems the result is the accumulation less 5 (in an integer array, as
for the default `threshold=0`, without its fraction: the next integer towards 0), elsewhere the given
threshold. -/
theorem C68_stems (hirr : ∀ n, n ∉ nbs n) {isInt : Bool} {fuel : ℕ} (hf : N < fuel) (threshold : K)
    (cells : List (Fin N)) (hp : ∀ p ∈ cells, ¬ OnLoop fdir p ∧ facc p ≠ none) :
    ∃ (stems : List (List (Fin N))) (arr : Fin N → Option K),
      fromControlPoints nbs fdir facc isInt fuel threshold cells = .ok arr ∧
      List.Forall₂ (MainStem nbs fdir facc) cells stems ∧
      (∀ u, (∃ c ∈ stems, u ∈ c) → ∃ a v, facc u = some a ∧ arr u = some v ∧ (isInt = false → v = a - 5) ∧
        (isInt = true → (∃ z : ℤ, v = z) ∧ (0 ≤ a - 5 → 0 ≤ v ∧ v ≤ a - 5 ∧ a - 5 < v + 1) ∧
          (a - 5 < 0 → v ≤ 0 ∧ a - 5 ≤ v ∧ v < a - 5 + 1))) ∧
      (∀ u, (∀ c ∈ stems, u ∉ c) → arr u = some threshold) := by
  obtain ⟨stems, arr, e, h1, h2, h3⟩ := points_ok (facc := facc) hirr (isInt := isInt) hf cells
    (fun _ => some threshold) hp
  refine ⟨stems, arr, e, h1, fun u hu => ?_, h3⟩
  obtain ⟨a, ha, hv⟩ := h2 u hu
  refine ⟨a, _, ha, hv, fun hi => ?_, fun hi => ?_⟩
  · simp [lowered, hi]
  · simp only [lowered, hi, if_true]
    unfold trunc
    split
    · rename_i h0
      exact ⟨⟨_, rfl⟩, fun _ => ⟨by exact_mod_cast Int.floor_nonneg.2 h0, Int.floor_le _, Int.lt_floor_add_one _⟩,
        fun h => absurd h (not_lt.2 h0)⟩
    · rename_i h0
      refine ⟨⟨_, rfl⟩, fun h => absurd h h0, fun h => ⟨?_, Int.le_ceil _, Int.ceil_lt_add_one _⟩⟩
      have : ⌈a - 5⌉ ≤ 0 := Int.ceil_le.2 (by simpa using h.le)
      exact_mod_cast this

/-- **C68.** Used as `contrib_area`, the result makes every cell of every main stem, the control points
among them, a stream cell. -/
theorem C68_delineated (hirr : ∀ n, n ∉ nbs n) {isInt : Bool} {fuel : ℕ} (hf : N < fuel) (threshold : K)
    (cells : List (Fin N)) {o : Obj N} (hp : ∀ p ∈ cells, ¬ OnLoop fdir p ∧ facc p ≠ none) :
    ∃ (stems : List (List (Fin N))) (arr : Fin N → Option K) (sa : Fin N → ℤ),
      fromControlPoints nbs fdir facc isInt fuel threshold cells = .ok arr ∧
      List.Forall₂ (MainStem nbs fdir facc) cells stems ∧
      delineate facc o (.array (List.ofFn arr)) none = .ok (o.setStream sa, sa) ∧
      (∀ c ∈ stems, ∀ u ∈ c, sa u = 1) ∧
      (∀ u, (∀ c ∈ stems, u ∉ c) → (sa u = 1 ↔ ∃ a, facc u = some a ∧ threshold ≤ a)) := by
  obtain ⟨stems, arr, e, h1, h2, h3⟩ := C68_stems hirr (isInt := isInt) hf threshold cells hp
  refine ⟨stems, arr, _, e, h1, by
    simp only [delineate, thresholds, toFun_some (show (List.ofFn arr).length = N by simp), Res.bind_ok,
      cut, Res.map_ok]; rfl, ?_, ?_⟩
  · intro c hc u hu
    obtain ⟨a, v, ha, hv, hr, hi⟩ := h2 u ⟨c, hc, hu⟩
    simp only [List.getElem_ofFn, Fin.eta, ha, hv, geq, decide_eq_true_eq]
    rw [if_pos]
    cases hI : isInt with
    | false => rw [hr hI]; linarith
    | true =>
      obtain ⟨_, h4, h5⟩ := hi hI
      rcases le_or_gt 0 (a - 5) with h | h
      · linarith [(h4 h).2.1]
      · linarith [(h5 h).2.2]
  · intro u hu
    simp only [List.getElem_ofFn, Fin.eta, h3 u hu]
    cases hfa : facc u with
    | none => simp [geq]
    | some a => by_cases h : threshold ≤ a <;> simp [geq, h]

/-- **C68.** The stems contain their control points. -/
theorem C68_contains {p : Fin N} {c : List (Fin N)} (h : MainStem nbs fdir facc p c) : p ∈ c :=
  List.mem_of_mem_head? (by rw [h.start]; simp)

omit [IsStrictOrderedRing K] in
/-- **C68, the case excluded above**: a control point in one of two cells that flow into each other, each
the other's only tributary, makes the call run forever. -/
theorem C68_diverges {a b : Fin N} {x y : K} (hab : flowsIn nbs fdir facc a = [(b, y)])
    (hba : flowsIn nbs fdir facc b = [(a, x)]) (hx : facc a = some x) (hy : facc b = some y)
    (isInt : Bool) (threshold : K) (cells : List (Fin N)) (fuel : ℕ) :
    fromControlPoints nbs fdir facc isInt fuel threshold (a :: cells) = .hang := by
  have key : ∀ (k : ℕ) (arr : Fin N → Option K), chainLoop nbs fdir facc isInt k a arr = .hang ∧
      chainLoop nbs fdir facc isInt k b arr = .hang := by
    intro k
    induction k with
    | zero => intro arr; exact ⟨rfl, rfl⟩
    | succ k ih =>
      intro arr
      constructor
      · simp only [chainLoop, hx, entry_some, Res.bind_ok, hab, argmax, List.foldl_nil]
        exact (ih _).2
      · simp only [chainLoop, hy, entry_some, Res.bind_ok, hba, argmax, List.foldl_nil]
        exact (ih _).1
  unfold fromControlPoints
  rw [List.foldl_cons]
  simp only [pointStep, Res.bind_ok, (key fuel _).1]
  induction cells with
  | nil => rfl
  | cons c cells ih => exact ih

end Control

/-- the chain 3 → 2 → 1 → 0 with a smaller tributary 4 → 1; control point in cell 1 -/
def exNbs : Fin 5 → List (Fin 5) := ![[1], [0, 4, 2], [1, 3], [2], [1]]
example : (fromControlPoints (K := ℚ) exNbs ![0, 0, 1, 2, 1] ![some 5, some 4, some 2, some (3/2), some 1]
    false 6 100 [1]).map List.ofFn = .ok [some 100, some (-1), some (-3), some (-7/2), some 100] := by
  decide +kernel
/-- the default threshold is an integer: fractions are dropped -/
example : (fromControlPoints (K := ℚ) exNbs ![0, 0, 1, 2, 1] ![some 5, some 4, some 2, some (3/2), some 1]
    true 6 0 [1]).map List.ofFn = .ok [some 0, some (-1), some (-3), some (-3), some 0] := by
  decide +kernel
/-- two cells flowing into each other -/
example : flowsIn (K := ℚ) ![[1], [0]] ![1, 0] ![some 1, some 2] (0 : Fin 2) = [(1, 2)] ∧
    flowsIn (K := ℚ) ![[1], [0]] ![1, 0] ![some 1, some 2] (1 : Fin 2) = [(0, 1)] := by
  decide +kernel
example : ∀ n, n ∉ exNbs n := by decide
/-- cell 1 is not on a loop -/
example : ¬ OnLoop (N := 5) ![0, 0, 1, 2, 1] 1 := by
  have key : ∀ c, TransGen (Flows (N := 5) ![0, 0, 1, 2, 1]) 1 c → c = 0 := by
    intro c hc
    induction hc with
    | single h =>
      have := h.2
      simp at this
      exact Fin.ext (by simpa using this.symm)
    | tail _ h ih =>
      subst ih
      have := h.2
      simp at this
      exact Fin.ext (by simpa using this.symm)
  intro h
  have := key 1 h
  revert this
  decide

end Dany.Delin
