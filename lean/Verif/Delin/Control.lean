import Verif.Delin.Props

/-!
# Properties C154, C155: networks delineated through control points

`threshold_from_control_points` followed by `delineate_streams` with its result as `contrib_area`.
-/

namespace Dany.Delin

open Function Relation Reach Flow _root_.Dany.Acc

variable {N : ℕ} {K : Type*} [Field K] [LinearOrder K] [IsStrictOrderedRing K] [FloorRing K]
variable {nbs : Fin N → List (Fin N)}

/-- in a chain every element but the first has a predecessor -/
theorem chain_pred {α : Type*} {R : α → α → Prop} : ∀ {l : List α} {p x : α}, l.head? = some p →
    l.IsChain R → x ∈ l → x = p ∨ ∃ y ∈ l, R y x
  | [], _, _, h, _, _ => by cases h
  | [a], p, x, h, _, hx => by
    cases h
    exact .inl (by simpa using hx)
  | a :: b :: l, p, x, h, hc, hx => by
    cases h
    rw [List.isChain_cons_cons] at hc
    rcases List.mem_cons.1 hx with rfl | hx
    · exact .inl rfl
    · rcases chain_pred (p := b) rfl hc.2 hx with rfl | ⟨y, hy, hr⟩
      · exact .inr ⟨a, by simp, hc.1⟩
      · exact .inr ⟨y, List.mem_cons_of_mem _ hy, hr⟩

theorem forall₂_mem_left {α β : Type*} {R : α → β → Prop} {l : List α} {k : List β}
    (h : List.Forall₂ R l k) {a : α} (ha : a ∈ l) : ∃ b ∈ k, R a b := by
  induction h with
  | nil => cases ha
  | cons h _ ih =>
    rcases List.mem_cons.1 ha with rfl | ha
    · exact ⟨_, by simp, h⟩
    · obtain ⟨b, hb, hr⟩ := ih ha
      exact ⟨b, List.mem_cons_of_mem _ hb, hr⟩

theorem forall₂_mem_right {α β : Type*} {R : α → β → Prop} {l : List α} {k : List β}
    (h : List.Forall₂ R l k) {b : β} (hb : b ∈ k) : ∃ a ∈ l, R a b := by
  induction h with
  | nil => cases hb
  | cons h _ ih =>
    rcases List.mem_cons.1 hb with rfl | hb
    · exact ⟨_, by simp, h⟩
    · obtain ⟨a, ha, hr⟩ := ih hb
      exact ⟨a, List.mem_cons_of_mem _ ha, hr⟩

omit [Field K] [LinearOrder K] [IsStrictOrderedRing K] [FloorRing K] in
/-- no flow cycles: no control point lies on a loop -/
theorem not_onLoop {fdir : Fin N → ℤ} {d : Fin N → Fin N} (hd : Legal fdir d) {p : Fin N}
    (hac : ¬ OnCycle d p) : ¬ OnLoop fdir p := by
  have step : ∀ {a b}, Flows fdir a b → a ≠ b ∧ d a = b := by
    rintro a b ⟨hne, h⟩
    rw [hd a] at h
    exact ⟨hne, Fin.ext (by exact_mod_cast h)⟩
  have key : ∀ c, TransGen (Flows fdir) p c → d p ≠ p ∧ ∃ k, d^[k + 1] p = c := by
    intro c hc
    induction hc with
    | single h => exact ⟨fun e => (step h).1 (e.symm.trans (step h).2), 0, (step h).2⟩
    | tail _ h ih =>
      obtain ⟨h1, k, h2⟩ := ih
      exact ⟨h1, k + 1, by rw [Function.iterate_succ_apply', h2]; exact (step h).2⟩
  exact fun h => hac (key p h)

/-- `C154_breaks_partial` for accumulated areas that do not decrease downstream -/
theorem breaks_of_grow (hirr : ∀ n, n ∉ nbs n) {o : Obj N} {d : Fin N → Fin N} (hd : Legal o.fdir d)
    (hac : ∀ n, ¬ OnCycle d n) {facc : Fin N → K} (hgrow : ∀ u, facc u ≤ facc (d u))
    {isInt : Bool} {fuel : ℕ} (hf : N < fuel) (threshold : K) (cells : List (Fin N)) :
    ∃ (stems : List (List (Fin N))) (arr : Fin N → Option K) (sa : Fin N → ℤ),
      fromControlPoints nbs o.fdir (fun n => some (facc n)) isInt fuel threshold cells = .ok arr ∧
      List.Forall₂ (MainStem nbs o.fdir fun n => some (facc n)) cells stems ∧
      delineate (fun n => some (facc n)) o (.array (List.ofFn arr)) none = .ok (o.setStream sa, sa) ∧
      (∀ n, sa n = 1 ↔ (∃ c ∈ stems, n ∈ c) ∨ threshold ≤ facc n) ∧
      ∀ n, (sa n = 1 ∧ sa (d n) ≠ 1) ↔
        (n ∈ cells ∧ facc (d n) < threshold ∧ ∀ c ∈ stems, d n ∉ c) := by
  obtain ⟨stems, arr, sa, h1, h2, h3, h4, h5⟩ := C68_delineated (nbs := nbs) (fdir := o.fdir)
    (facc := fun n => some (facc n)) hirr (isInt := isInt) hf threshold cells (o := o)
    (fun p _ => ⟨not_onLoop hd (hac p), by simp⟩)
  have off : ∀ u, (∀ c ∈ stems, u ∉ c) → (sa u = 1 ↔ threshold ≤ facc u) := by
    intro u hu
    rw [h5 u hu]
    constructor
    · rintro ⟨a, ha, hle⟩
      cases ha; exact hle
    · intro hle; exact ⟨_, rfl, hle⟩
  refine ⟨stems, arr, sa, h1, h2, h3, fun n => ?_, fun n => ?_⟩
  · by_cases hu : ∃ c ∈ stems, n ∈ c
    · obtain ⟨c, hc, hm⟩ := hu
      exact ⟨fun _ => .inl ⟨c, hc, hm⟩, fun _ => h4 c hc n hm⟩
    · rw [off n fun c hc hm => hu ⟨c, hc, hm⟩]
      exact ⟨.inr, fun h => h.resolve_left hu⟩
  constructor
  · rintro ⟨hn, hdn⟩
    have hdo : ∀ c ∈ stems, d n ∉ c := fun c hc hmem => hdn (h4 c hc _ hmem)
    have hlt : facc (d n) < threshold := by
      by_contra hge
      exact hdn ((off _ hdo).2 (not_lt.1 hge))
    refine ⟨?_, hlt, hdo⟩
    by_cases hst : ∃ c ∈ stems, n ∈ c
    · obtain ⟨c, hc, hnc⟩ := hst
      obtain ⟨p, hpc, hms⟩ := forall₂_mem_right h2 hc
      rcases chain_pred hms.start hms.steps hnc with rfl | ⟨y, hy, a, ht, _⟩
      · exact hpc
      · exfalso
        have : d n = y := by
          have := ht.2.1
          rw [hd n] at this
          exact Fin.ext (by exact_mod_cast this)
        exact hdo c hc (this ▸ hy)
    · exfalso
      have hno : ∀ c ∈ stems, n ∉ c := fun c hc hmem => hst ⟨c, hc, hmem⟩
      have := (off n hno).1 hn
      linarith [hgrow n]
  · rintro ⟨hpc, hlt, hdo⟩
    refine ⟨?_, fun h => ?_⟩
    · obtain ⟨c, hc, hms⟩ := forall₂_mem_left h2 hpc
      exact h4 c hc n (C68_contains hms)
    · exact absurd ((off _ hdo).1 h) (not_le.2 hlt)

/-- **C154.**  Where a network delineated through control points is broken.  Flow directions are cell
numbers without flow cycles, accumulated areas come from `flow_accumulation`; the threshold array comes
from `threshold_from_control_points` with the value `threshold` away from the stems.  Then there is a main
stem for every control point such that a stream cell `n` flows to a cell that is *not* a stream cell exactly
if `n` is a control point and the cell below it lies on no stem and has accumulated less than
`threshold`. -/
theorem C154_breaks_partial (hirr : ∀ n, n ∉ nbs n) {o : Obj N} {d : Fin N → Fin N} (hd : Legal o.fdir d)
    (hac : ∀ n, ¬ OnCycle d n) {area : Fin N → K} (hpos : ∀ u, 0 ≤ area u) {afuel : ℕ} {facc : Fin N → K}
    (ho : flowAccumulation afuel o.fdir area false = .ok facc) {isInt : Bool} {fuel : ℕ} (hf : N < fuel)
    (threshold : K) (cells : List (Fin N)) :
    ∃ (stems : List (List (Fin N))) (arr : Fin N → Option K) (sa : Fin N → ℤ),
      fromControlPoints nbs o.fdir (fun n => some (facc n)) isInt fuel threshold cells = .ok arr ∧
      List.Forall₂ (MainStem nbs o.fdir fun n => some (facc n)) cells stems ∧
      delineate (fun n => some (facc n)) o (.array (List.ofFn arr)) none = .ok (o.setStream sa, sa) ∧
      ∀ n, (sa n = 1 ∧ sa (d n) ≠ 1) ↔
        (n ∈ cells ∧ facc (d n) < threshold ∧ ∀ c ∈ stems, d n ∉ c) := by
  have hres : Resolves o.fdir d := fun n => .inl ⟨by rw [hd n]; omega, (hd n).symm⟩
  have hgrow : ∀ u, facc u ≤ facc (d u) := by
    intro u
    by_cases hs : d u = u
    · rw [hs]
    · have := C34_grows_downstream hres hpos ho u (hac u) hs
      have := hpos (d u)
      linarith
  obtain ⟨stems, arr, sa, h1, h2, h3, _, h4⟩ := breaks_of_grow (nbs := nbs) hirr hd hac hgrow
    (isInt := isInt) hf threshold cells
  exact ⟨stems, arr, sa, h1, h2, h3, h4⟩

/-- **C154.**  So the network is continuous down to the outlets if every control point drains to a cell
that has accumulated the threshold. -/
theorem C154_continuous (hirr : ∀ n, n ∉ nbs n) {o : Obj N} {d : Fin N → Fin N} (hd : Legal o.fdir d)
    (hac : ∀ n, ¬ OnCycle d n) {area : Fin N → K} (hpos : ∀ u, 0 ≤ area u) {afuel : ℕ} {facc : Fin N → K}
    (ho : flowAccumulation afuel o.fdir area false = .ok facc) {isInt : Bool} {fuel : ℕ} (hf : N < fuel)
    (threshold : K) (cells : List (Fin N))
    (hp : ∀ p ∈ cells, threshold ≤ facc (d p)) :
    ∃ (arr : Fin N → Option K) (sa : Fin N → ℤ),
      fromControlPoints nbs o.fdir (fun n => some (facc n)) isInt fuel threshold cells = .ok arr ∧
      delineate (fun n => some (facc n)) o (.array (List.ofFn arr)) none = .ok (o.setStream sa, sa) ∧
      (∀ p ∈ cells, sa p = 1) ∧ ∀ n m, sa n = 1 → Reaches d n m → sa m = 1 := by
  obtain ⟨stems, arr, sa, h1, h2, h3, h4⟩ := C154_breaks_partial (nbs := nbs) hirr hd hac hpos ho
    (isInt := isInt) hf threshold cells
  obtain ⟨stems', arr', sa', g1, g2, g3, g4, _⟩ := C68_delineated (nbs := nbs) (fdir := o.fdir)
    (facc := fun n => some (facc n)) hirr (isInt := isInt) hf threshold cells (o := o)
    (fun p _ => ⟨not_onLoop hd (hac p), by simp⟩)
  rw [h1] at g1
  cases g1
  rw [h3] at g3
  cases g3
  have step : ∀ n, sa n = 1 → sa (d n) = 1 := by
    intro n hn
    by_contra hne
    obtain ⟨hc, hlt, _⟩ := (h4 n).1 ⟨hn, hne⟩
    exact absurd (hp n hc) (not_le.2 hlt)
  refine ⟨arr, sa, h1, h3, fun p hpc => ?_, ?_⟩
  · obtain ⟨c, hc, hms⟩ := forall₂_mem_left g2 hpc
    exact g4 c hc p (C68_contains hms)
  · rintro n m hn ⟨k, rfl⟩
    induction k with
    | zero => exact hn
    | succ k ih =>
      rw [Function.iterate_succ_apply']
      exact step _ ih

/-- **C154** as stated is false: 3 → 2 → 1 → 0 → 0 with 4 → 1, unit areas, one control point in cell 2,
threshold 5.  Cells 3 and 2 become stream cells and so does the outlet 0, but not cell 1 between them. -/
theorem C154_refuted : ((flowAccumulation 9 ![0, 0, 1, 2, 1] (fun _ : Fin 5 => (1 : ℚ)) false).bind fun f =>
    (fromControlPoints exNbs ![0, 0, 1, 2, 1] (fun n => some (f n)) false 6 5 [2]).bind fun t =>
      (delineate (fun n => some (f n)) ⟨![0, 0, 1, 2, 1], none, none⟩ (.array (List.ofFn t)) none).map
        fun r => List.ofFn r.2) = .ok [1, 0, 1, 1, 0] := by decide +kernel

/-- the hypotheses of `C154_breaks_partial` and `C154_continuous` are met there, with threshold 4 for the
latter -/
theorem ex_legal : Legal (N := 5) ![0, 0, 1, 2, 1] ![0, 0, 1, 2, 1] := by unfold Legal; decide
theorem ex_acyclic : ∀ n, ¬ OnCycle (N := 5) ![0, 0, 1, 2, 1] n := by
  have h3 : ∀ n, (![0, 0, 1, 2, 1] : Fin 5 → Fin 5)^[3] n = 0 := by decide
  have h0 : ∀ k, (![0, 0, 1, 2, 1] : Fin 5 → Fin 5)^[k] 0 = 0 := by
    intro k
    induction k with
    | zero => rfl
    | succ k ih => rw [Function.iterate_succ_apply', ih]; rfl
  rintro n ⟨hne, k, hk⟩
  have hper : ∀ m, (![0, 0, 1, 2, 1] : Fin 5 → Fin 5)^[m * (k + 1)] n = n := by
    intro m
    induction m with
    | zero => simp
    | succ m ih => rw [Nat.succ_mul, Function.iterate_add_apply, hk, ih]
  have : n = 0 := by
    have h := hper 3
    rw [show 3 * (k + 1) = (3 * k) + 3 by ring, Function.iterate_add_apply, h3, h0] at h
    exact h.symm
  subst this
  exact hne rfl
example : ∃ f, flowAccumulation 9 ![0, 0, 1, 2, 1] (fun _ : Fin 5 => (1 : ℚ)) false = .ok f ∧
    (4 : ℚ) ≤ f ((![0, 0, 1, 2, 1] : Fin 5 → Fin 5) 2) :=
  ⟨![5, 4, 2, 1, 1], by decide +kernel, by decide +kernel⟩

/-! ### C155 -/

/-- **C155.**  With a threshold above every accumulated area, exactly the cells on the main stems of the
control points become stream cells. -/
theorem C155_stems_partial (hirr : ∀ n, n ∉ nbs n) {o : Obj N} {facc : Fin N → Option K} {isInt : Bool}
    {fuel : ℕ} (hf : N < fuel) (threshold : K) (cells : List (Fin N))
    (hp : ∀ p ∈ cells, ¬ OnLoop o.fdir p ∧ facc p ≠ none) (ht : ∀ u a, facc u = some a → a < threshold) :
    ∃ (stems : List (List (Fin N))) (arr : Fin N → Option K) (sa : Fin N → ℤ),
      fromControlPoints nbs o.fdir facc isInt fuel threshold cells = .ok arr ∧
      List.Forall₂ (MainStem nbs o.fdir facc) cells stems ∧
      delineate facc o (.array (List.ofFn arr)) none = .ok (o.setStream sa, sa) ∧
      ∀ u, sa u = 1 ↔ ∃ c ∈ stems, u ∈ c := by
  obtain ⟨stems, arr, sa, h1, h2, h3, h4, h5⟩ := C68_delineated (nbs := nbs) (fdir := o.fdir)
    (facc := facc) hirr (isInt := isInt) hf threshold cells (o := o) hp
  refine ⟨stems, arr, sa, h1, h2, h3, fun u => ⟨fun hu => ?_, fun ⟨c, hc, hu⟩ => h4 c hc u hu⟩⟩
  by_contra hno
  obtain ⟨a, ha, hle⟩ := (h5 u fun c hc hm => hno ⟨c, hc, hm⟩).1 hu
  exact absurd (ht u a ha) (not_lt.2 hle)

/-- **C155**, the exact result for every threshold: a stream cell is one on the main stem of a control point, or one that
has accumulated the threshold.  So the claim holds exactly if no cell off the stems has accumulated the threshold. -/
theorem C155_exact (hirr : ∀ n, n ∉ nbs n) {o : Obj N} {facc : Fin N → Option K} {isInt : Bool}
    {fuel : ℕ} (hf : N < fuel) (threshold : K) (cells : List (Fin N))
    (hp : ∀ p ∈ cells, ¬ OnLoop o.fdir p ∧ facc p ≠ none) :
    ∃ (stems : List (List (Fin N))) (arr : Fin N → Option K) (sa : Fin N → ℤ),
      fromControlPoints nbs o.fdir facc isInt fuel threshold cells = .ok arr ∧
      List.Forall₂ (MainStem nbs o.fdir facc) cells stems ∧
      delineate facc o (.array (List.ofFn arr)) none = .ok (o.setStream sa, sa) ∧
      (∀ u, (sa u = 1 ↔ (∃ c ∈ stems, u ∈ c) ∨ ∃ a, facc u = some a ∧ threshold ≤ a) ∧ (sa u ≠ 1 → sa u = 0)) ∧
      ((∀ u, sa u = 1 ↔ ∃ c ∈ stems, u ∈ c) ↔
        ∀ u a, facc u = some a → (∀ c ∈ stems, u ∉ c) → a < threshold) := by
  obtain ⟨stems, arr, sa, h1, h2, h3, h4, h5⟩ := C68_delineated (nbs := nbs) (fdir := o.fdir)
    (facc := facc) hirr (isInt := isInt) hf threshold cells (o := o) hp
  have key : ∀ u, sa u = 1 ↔ (∃ c ∈ stems, u ∈ c) ∨ ∃ a, facc u = some a ∧ threshold ≤ a := by
    intro u
    by_cases hu : ∃ c ∈ stems, u ∈ c
    · obtain ⟨c, hc, hm⟩ := hu
      exact ⟨fun _ => .inl ⟨c, hc, hm⟩, fun _ => h4 c hc u hm⟩
    · rw [h5 u fun c hc hm => hu ⟨c, hc, hm⟩]
      exact ⟨.inr, fun h => h.resolve_left hu⟩
  refine ⟨stems, arr, sa, h1, h2, h3, fun u => ⟨key u, fun hne => ?_⟩, fun h u a ha hu => ?_, fun h u => ?_⟩
  · unfold delineate at h3
    obtain ⟨t, _, h3⟩ := Res.bind_eq_ok.1 h3
    obtain ⟨sa', hcut, he⟩ := Res.map_eq_ok.1 h3
    simp only [cut, Res.ok.injEq] at hcut
    have hsa : sa' = sa := congrArg Prod.snd he
    subst hsa hcut
    dsimp only at hne ⊢
    split at hne
    · exact absurd rfl hne
    · rename_i h; rw [if_neg h]
  · by_contra hge
    obtain ⟨c, hc, hm⟩ := (h u).1 ((key u).2 (.inr ⟨a, ha, not_lt.1 hge⟩))
    exact hu c hc hm
  · rw [key u]
    refine ⟨fun h' => ?_, .inl⟩
    rcases h' with h' | ⟨a, ha, hle⟩
    · exact h'
    · by_contra hno
      exact absurd (h u a ha fun c hc hm => hno ⟨c, hc, hm⟩) (not_lt.2 hle)

/-- **C155** is false of the code for the default `threshold=0`, whatever the control points: with
non-negative accumulated areas every cell becomes a stream cell. -/
theorem C155_refuted (hirr : ∀ n, n ∉ nbs n) {o : Obj N} {facc : Fin N → K} (hpos : ∀ u, 0 ≤ facc u)
    {fuel : ℕ} (hf : N < fuel) (cells : List (Fin N)) (hp : ∀ p ∈ cells, ¬ OnLoop o.fdir p) :
    ∃ (arr : Fin N → Option K) (sa : Fin N → ℤ),
      fromControlPoints nbs o.fdir (fun n => some (facc n)) true fuel 0 cells = .ok arr ∧
      delineate (fun n => some (facc n)) o (.array (List.ofFn arr)) none = .ok (o.setStream sa, sa) ∧
      ∀ u, sa u = 1 := by
  obtain ⟨stems, arr, sa, h1, _, h3, h4, h5⟩ := C68_delineated (nbs := nbs) (fdir := o.fdir)
    (facc := fun n => some (facc n)) hirr (isInt := true) hf 0 cells (o := o)
    (fun p hpc => ⟨hp p hpc, by simp⟩)
  refine ⟨arr, sa, h1, h3, fun u => ?_⟩
  by_cases hu : ∃ c ∈ stems, u ∈ c
  · obtain ⟨c, hc, hm⟩ := hu
    exact h4 c hc u hm
  · exact (h5 u fun c hc hm => hu ⟨c, hc, hm⟩).2 ⟨_, rfl, hpos u⟩

/-- non-vacuity: the network above, control point in cell 1, thresholds 100 and 0 -/
example : (fromControlPoints (K := ℚ) exNbs ![0, 0, 1, 2, 1] ![some 5, some 4, some 2, some 1, some 1] false
    6 100 [1]).bind (fun t => (delineate ![some 5, some 4, some 2, some 1, some 1]
      ⟨![0, 0, 1, 2, 1], none, none⟩ (.array (List.ofFn t)) none).map fun r => List.ofFn r.2) =
    .ok [0, 1, 1, 1, 0] := by decide +kernel
example : (fromControlPoints (K := ℚ) exNbs ![0, 0, 1, 2, 1] ![some 5, some 4, some 2, some 1, some 1] true
    6 0 [1]).bind (fun t => (delineate ![some 5, some 4, some 2, some 1, some 1]
      ⟨![0, 0, 1, 2, 1], none, none⟩ (.array (List.ofFn t)) none).map fun r => List.ofFn r.2) =
    .ok [1, 1, 1, 1, 1] := by decide +kernel
example (p : Fin 5) : ¬ OnLoop (N := 5) ![0, 0, 1, 2, 1] p := not_onLoop ex_legal (ex_acyclic p)

end Dany.Delin
