import Verif.Flood.Props

/-!
# Change of datum and of units (C120)
-/

namespace Dany.Flood

open Function

variable {N : ℕ} {V W : Type*} [LinearOrder V] [LinearOrder W] {φ : V → W} {raise : V → V} {raise' : W → W}

/-- the state with all elevations converted -/
def PF.conv (φ : V → W) (s : PF N V) : PF N W where
  dem := fun n => φ (s.dem n)
  closed := s.closed
  heap := s.heap.map fun e => (φ e.1, e.2)
  pit := s.pit
  done := s.done

theorem comp_update (φ : V → W) (f : Fin N → V) (n : Fin N) (v : V) :
    (fun k => φ (update f n v k)) = update (fun k => φ (f k)) n (φ v) := by
  funext k
  by_cases h : k = n
  · subst h; simp
  · simp [h]

theorem tupleLe_conv (hφ : StrictMono φ) (a b : V × Fin N) :
    tupleLe (φ a.1, a.2) (φ b.1, b.2) = tupleLe a b := by
  simp [tupleLe, hφ.lt_iff_lt, hφ.injective.eq_iff]

theorem popMin_conv (hφ : StrictMono φ) (l : List (V × Fin N)) :
    popMin (l.map fun e => (φ e.1, e.2)) =
      (popMin l).map fun r => ((φ r.1.1, r.1.2), r.2.map fun e => (φ e.1, e.2)) := by
  induction l with
  | nil => rfl
  | cons x xs ih =>
    simp only [List.map_cons, popMin]
    rw [ih]
    cases popMin xs with
    | none => rfl
    | some r =>
      obtain ⟨m, rest⟩ := r
      simp only [Option.map_some]
      rw [tupleLe_conv hφ]
      split <;> rfl

theorem popNext_conv (hφ : StrictMono φ) (s : PF N V) :
    popNext (s.conv φ) = (popNext s).map fun r => (r.1, r.2.conv φ) := by
  unfold popNext
  show (match s.pit with
    | c :: rest => some (c, { s.conv φ with pit := rest })
    | [] => match popMin (s.heap.map fun e : V × Fin N => (φ e.1, e.2)) with
      | none => none
      | some ((_, c), rest) => some (c, { s.conv φ with heap := rest })) = _
  cases hp : s.pit with
  | cons c rest => rfl
  | nil =>
    simp only
    rw [popMin_conv hφ]
    cases popMin s.heap with
    | none => rfl
    | some r => simp [PF.conv, hp]

theorem visit_conv (hφ : StrictMono φ) (hr : ∀ x, raise' (φ x) = φ (raise x)) (streams : Bool)
    (seed : List (Fin N)) (c : Fin N) (s : PF N V) (m : ℕ) :
    visit raise' streams seed c (s.conv φ) m = (visit raise streams seed c s m).conv φ := by
  have hup : ∀ n : Fin N, raiseInto raise' c n
      { s.conv φ with closed := update (s.conv φ).closed n true } =
      (raiseInto raise c n { s with closed := update s.closed n true }).conv φ := by
    intro n
    simp only [raiseInto, PF.conv, comp_update, hr]
  unfold visit
  by_cases h : m < N
  · simp only [h, dif_pos]
    by_cases hc : s.closed ⟨m, h⟩ = true
    · have hc' : (s.conv φ).closed ⟨m, h⟩ = true := hc
      rw [if_pos hc', if_pos hc]
    · have hc' : ¬ (s.conv φ).closed ⟨m, h⟩ = true := hc
      rw [if_neg hc', if_neg hc]
      by_cases hle : s.dem ⟨m, h⟩ ≤ s.dem c
      · have hle' : (s.conv φ).dem ⟨m, h⟩ ≤ (s.conv φ).dem c := hφ.le_iff_le.2 hle
        rw [if_pos hle', if_pos hle, hup]
        cases streams
        · rfl
        · simp only [if_true]
          split_ifs <;> rfl
      · have hle' : ¬ (s.conv φ).dem ⟨m, h⟩ ≤ (s.conv φ).dem c := fun h => hle (hφ.le_iff_le.1 h)
        rw [if_neg hle', if_neg hle]
        rfl
  · simp [h]

theorem foldl_min_conv (hφ : StrictMono φ) (e : V) (es : List V) :
    (es.map φ).foldl min (φ e) = φ (es.foldl min e) := by
  induction es generalizing e with
  | nil => rfl
  | cons x xs ih => simp only [List.map_cons, List.foldl_cons]; rw [← hφ.monotone.map_min, ih]

theorem foldl_max_conv (hφ : StrictMono φ) (e : V) (es : List V) :
    (es.map φ).foldl max (φ e) = φ (es.foldl max e) := by
  induction es generalizing e with
  | nil => rfl
  | cons x xs ih => simp only [List.map_cons, List.foldl_cons]; rw [← hφ.monotone.map_max, ih]

theorem burn_conv (hφ : StrictMono φ) (hr : ∀ x, raise' (φ x) = φ (raise x)) (streams : Bool)
    (nbr : Fin N → List ℕ) (seed : List (Fin N)) (c : Fin N) (dem : Fin N → V) :
    burn raise' streams nbr seed c (fun n => φ (dem n)) = fun n => φ (burn raise streams nbr seed c dem n) := by
  have he : streamElevs nbr seed c (fun n => φ (dem n)) = (streamElevs nbr seed c dem).map φ := by
    simp [streamElevs]
  unfold burn
  split
  · rw [he]
    rcases streamElevs nbr seed c dem with _ | ⟨a, _ | ⟨b, es⟩⟩
    · rfl
    · rfl
    · simp only [List.map_cons]
      rw [show φ b :: es.map φ = (b :: es).map φ from rfl, foldl_min_conv hφ, hr]
      by_cases h : (b :: es).foldl min a > dem c
      · rw [if_pos h, if_pos (hφ.lt_iff_lt.2 h), comp_update]
      · rw [if_neg h, if_neg (fun h' => h (hφ.lt_iff_lt.1 h'))]
  · rfl

theorem process_conv (hφ : StrictMono φ) (hr : ∀ x, raise' (φ x) = φ (raise x)) (streams : Bool)
    (nbr : Fin N → List ℕ) (seed : List (Fin N)) (c : Fin N) (s : PF N V) :
    process raise' streams nbr seed c (s.conv φ) = (process raise streams nbr seed c s).conv φ := by
  have key : ∀ (l : List ℕ) (s : PF N V), l.foldl (visit raise' streams seed c) (s.conv φ) =
      (l.foldl (visit raise streams seed c) s).conv φ := by
    intro l
    induction l with
    | nil => intro s; rfl
    | cons m l ih => intro s; rw [List.foldl_cons, List.foldl_cons, visit_conv hφ hr, ih]
  unfold process
  rw [← key]
  congr 1
  show ({ s.conv φ with dem := burn raise' streams nbr seed c (fun n => φ (s.dem n)),
                        done := (s.conv φ).done ++ [c] } : PF N W) = _
  rw [burn_conv hφ hr]
  rfl

theorem pfLoop_conv (hφ : StrictMono φ) (hr : ∀ x, raise' (φ x) = φ (raise x)) (streams : Bool)
    (nbr : Fin N → List ℕ) (seed : List (Fin N)) (fuel : ℕ) (s : PF N V) :
    pfLoop raise' streams nbr seed fuel (s.conv φ) = (pfLoop raise streams nbr seed fuel s).map (PF.conv φ) := by
  induction fuel generalizing s with
  | zero => rfl
  | succ k ih =>
    simp only [pfLoop]
    rw [popNext_conv hφ]
    cases popNext s with
    | none => rfl
    | some r =>
      simp only [Option.map_some]
      rw [process_conv hφ hr, ih]

theorem priorityFlood_conv (hφ : StrictMono φ) (hr : ∀ x, raise' (φ x) = φ (raise x)) (streams : Bool)
    (nbr : Fin N → List ℕ) (seed : List (Fin N)) (fuel : ℕ) (dem : Fin N → V) :
    priorityFlood fuel raise' streams nbr (fun n => φ (dem n)) seed =
      (priorityFlood fuel raise streams nbr dem seed).map fun f n => φ (f n) := by
  unfold priorityFlood
  have h0 : pfInit (fun n => φ (dem n)) seed = (pfInit dem seed).conv φ := by
    simp [pfInit, PF.conv, Function.comp_def]
  rw [h0, pfLoop_conv hφ hr]
  cases pfLoop raise streams nbr seed fuel (pfInit dem seed) <;> rfl

theorem drainCell_conv (hφ : StrictMono φ) (hr : ∀ x, raise' (φ x) = φ (raise x)) (nbr : Fin N → List ℕ)
    (dem : Fin N → V) (c : Fin N) (s : Bool × (Fin N → V)) :
    drainCell raise' nbr (fun n => φ (dem n)) c (s.1, fun n => φ (s.2 n)) =
      (drainCell raise nbr dem c s).map fun r => (r.1, fun n => φ (r.2 n)) := by
  unfold drainCell
  dsimp only
  by_cases h : s.2 c > dem c
  · rw [if_pos h, if_pos (hφ.lt_iff_lt.2 h)]
    cases hn : indexAll N (nbr c) with
    | err e => rfl
    | hang => rfl
    | ok nc =>
      simp only [Res.bind_ok]
      have f1 : nc.filter (fun n => decide (φ (dem c) ≥ raise' (φ (s.2 n)))) =
          nc.filter (fun n => decide (dem c ≥ raise (s.2 n))) := by
        refine List.filter_congr fun n _ => ?_
        simp [hr, hφ.le_iff_le]
      have f2 : nc.filter (fun n => decide (raise' (φ (s.2 n)) < φ (s.2 c))) =
          nc.filter (fun n => decide (raise (s.2 n) < s.2 c)) := by
        refine List.filter_congr fun n _ => ?_
        simp [hr, hφ.lt_iff_lt]
      rw [f1, f2]
      split
      · simp [comp_update]
      · have hm : (nc.filter (fun n => decide (raise (s.2 n) < s.2 c))).map (fun n => φ (s.2 n)) =
            ((nc.filter (fun n => decide (raise (s.2 n) < s.2 c))).map s.2).map φ := by simp
        rw [hm]
        cases (nc.filter (fun n => decide (raise (s.2 n) < s.2 c))).map s.2 with
        | nil => rfl
        | cons w ws =>
          simp only [List.map_cons]
          rw [foldl_max_conv hφ, hr]
          simp [comp_update]
  · rw [if_neg h, if_neg (fun h' => h (hφ.lt_iff_lt.1 h'))]
    rfl

theorem drainSweep_conv (hφ : StrictMono φ) (hr : ∀ x, raise' (φ x) = φ (raise x)) (nbr : Fin N → List ℕ)
    (dem wf : Fin N → V) : drainSweep raise' nbr (fun n => φ (dem n)) (fun n => φ (wf n)) =
      (drainSweep raise nbr dem wf).map fun r => (r.1, fun n => φ (r.2 n)) := by
  have key : ∀ (l : List (Fin N)) (s : Bool × (Fin N → V)),
      foldRes (drainCell raise' nbr (fun n => φ (dem n))) l (s.1, fun n => φ (s.2 n)) =
        (foldRes (drainCell raise nbr dem) l s).map fun r => (r.1, fun n => φ (r.2 n)) := by
    intro l
    induction l with
    | nil => intro s; rfl
    | cons c l ih =>
      intro s
      simp only [foldRes]
      rw [drainCell_conv hφ hr]
      cases drainCell raise nbr dem c s with
      | ok r => exact ih r
      | err e => rfl
      | hang => rfl
  exact key _ (false, wf)

theorem drainLoop_conv (hφ : StrictMono φ) (hr : ∀ x, raise' (φ x) = φ (raise x)) (nbr : Fin N → List ℕ)
    (dem : Fin N → V) (fuel : ℕ) (wf : Fin N → V) :
    drainLoop raise' nbr (fun n => φ (dem n)) fuel (fun n => φ (wf n)) =
      (drainLoop raise nbr dem fuel wf).map fun f n => φ (f n) := by
  induction fuel generalizing wf with
  | zero => rfl
  | succ k ih =>
    simp only [drainLoop]
    rw [drainSweep_conv hφ hr]
    cases drainSweep raise nbr dem wf with
    | err e => rfl
    | hang => rfl
    | ok r =>
      simp only [Res.map_ok, Res.bind_ok]
      split
      · exact ih _
      · rfl

/-- **C120** (only the order matters).  If all elevations are converted by a function that keeps the strict
order, and eps and the flood level with them, every method gives the converted result (or the same
exception), with or without a stream mask. -/
theorem C120_converted (hφ : StrictMono φ) (hr : ∀ x, raise' (φ x) = φ (raise x)) (fuel : ℕ) (flood : V)
    (g : Grid N) (dem : Fin N → V) (mask : Option (Fin N → Bool)) (method : String) :
    fillSinks fuel raise' (φ flood) g (fun n => φ (dem n)) mask method =
      (fillSinks fuel raise flood g dem mask method).map fun f n => φ (f n) := by
  unfold fillSinks
  cases Edge.edgeNodes g.iverts with
  | err e => rfl
  | hang => rfl
  | ok edge =>
    simp only [Res.bind_ok]
    rw [fillFrom_eq, fillFrom_eq]
    have he : ∀ x, effRaise raise' mask method (φ x) = φ (effRaise raise mask method x) := by
      intro x; unfold effRaise; split
      · rfl
      · exact hr x
    split
    · unfold floodAndDrain
      rw [← drainLoop_conv hφ hr]
      congr 1
      funext n
      unfold drainInit
      split <;> rfl
    · cases mask with
      | none => exact priorityFlood_conv hφ he _ _ _ _ _
      | some m => exact priorityFlood_conv hφ he _ _ _ _ _

/-- the flood level is only used by 'drain' -/
theorem fillSinks_flood {raise : V → V} {fuel : ℕ} {g : Grid N} {dem : Fin N → V}
    {mask : Option (Fin N → Bool)} {method : String} (heff : effective mask method ≠ .drain) (flood flood' : V) :
    fillSinks fuel raise flood g dem mask method = fillSinks fuel raise flood' g dem mask method := by
  unfold fillSinks
  congr 1; funext edge
  rw [fillFrom_eq, fillFrom_eq, if_neg heff, if_neg heff]

variable {K : Type*} [Field K] [LinearOrder K] [IsStrictOrderedRing K]

/-- **C120** ('priority' and 'complete').  Another datum `c` and other units, `a > 0` per old unit, for the
elevations and eps give the same filled DEM in the new units. -/
theorem C120_datum {a : K} (ha : 0 < a) (c eps flood : K) {fuel : ℕ} {g : Grid N} {dem : Fin N → K}
    {mask : Option (Fin N → Bool)} {method : String} (heff : effective mask method ≠ .drain) :
    fillSinks fuel (· + a * eps) flood g (fun n => a * dem n + c) mask method =
      (fillSinks fuel (· + eps) flood g dem mask method).map fun f n => a * f n + c := by
  have h := C120_converted (φ := fun x : K => a * x + c) (raise := (· + eps)) (raise' := (· + a * eps))
    (fun x y h => by simpa using mul_lt_mul_of_pos_left h ha) (fun x => by ring) fuel flood g dem mask method
  rw [fillSinks_flood heff flood (a * flood + c)]
  exact h

/-- **C120** ('drain').  The flood level 1e10 is not converted: the results agree where the DEM drains, that
is where neither of them reaches the flood level. -/
theorem C120_datum_drain {a : K} (ha : 0 < a) {c eps flood : K} (heps : 0 ≤ eps) {fuel fuel' : ℕ} {g : Grid N}
    {dem out out' : Fin N → K} {method : String}
    (heff : effective (none : Option (Fin N → Bool)) method = .drain)
    (hfl : ∀ n, dem n ≤ flood) (hfl' : ∀ n, a * dem n + c ≤ flood)
    (h : fillSinks fuel (· + eps) flood g dem none method = .ok out)
    (h' : fillSinks fuel' (· + a * eps) flood g (fun n => a * dem n + c) none method = .ok out')
    (n : Fin N) (hn : out n ≠ flood) (hn' : a * out n + c ≤ flood) : out' n = a * out n + c := by
  have hm : Monotone (fun x : K => a * x + c) := fun x y h => by
    simpa using mul_le_mul_of_nonneg_left h ha.le
  have l1 := C10_drain_least (raise := (· + eps)) (fun x => by linarith) (fun x y h => by linarith) hfl heff h n
  have l2 := C10_drain_least (raise := (· + a * eps)) (fun x => by nlinarith) (fun x y h => by linarith) hfl'
    heff h' n
  have e1 : ∀ k v, PathRise (· + eps) g.nbr dem (Edge.OnEdge g.iverts) k v →
      PathRise (· + a * eps) g.nbr (fun n => a * dem n + c) (Edge.OnEdge g.iverts) k (a * v + c) := by
    intro k v hv
    induction hv with
    | seed hs => exact PathRise.seed (dem := fun n => a * dem n + c) hs
    | @step d k v _ hadj ih =>
      have := PathRise.step ih hadj
      have e : a * max (dem k) (v + eps) + c = max (a * dem k + c) (a * v + c + a * eps) := by
        rw [show a * v + c + a * eps = a * (v + eps) + c by ring]
        exact hm.map_max
      rw [e]; exact this
  have e2 : ∀ k w, PathRise (· + a * eps) g.nbr (fun n => a * dem n + c) (Edge.OnEdge g.iverts) k w →
      ∃ v, w = a * v + c ∧ PathRise (· + eps) g.nbr dem (Edge.OnEdge g.iverts) k v := by
    intro k w hw
    induction hw with
    | seed hs => exact ⟨_, rfl, .seed hs⟩
    | @step d k w _ hadj ih =>
      obtain ⟨v, rfl, hv⟩ := ih
      refine ⟨_, ?_, .step hv hadj⟩
      rw [show a * v + c + a * eps = a * (v + eps) + c by ring]
      exact hm.map_max.symm
  apply le_antisymm
  · exact l2.2 (.inr (e1 n _ (l1.1.resolve_left hn)))
  · rcases l2.1 with h3 | h3
    · rw [h3]; exact hn'
    · obtain ⟨v, hv, h4⟩ := e2 n _ h3
      rw [hv]
      exact hm (l1.2 (.inr h4))

end Dany.Flood
